import Verif.Props.Erase
import Verif.Proofs.HistoryInv
import Verif.Spec.Time
/-!
# Timed caches: C39–C48

The clock is arbitrary: `O.clock n` is its `n`-th reading. `s.g.ticks` is the number of readings made before state
`s`, so a call that starts in `s` and makes two readings sees `O.clock s.g.ticks` and `O.clock (s.g.ticks + 1)`.
-/

set_option linter.unusedSectionVars false
set_option autoImplicit false

namespace LRU

variable {K V : Type} [KeyEqual K] [DecidableEq K] [DecidableEq V] {O : Oracle K V}
  {s s' s'' : St (Cache K V) K V} {op : Op K V} {r : Res K V} {k : K} {v : V} {e : Err} {ttl : Int} {res : Nat}

theorem expiredAt_timed {g : Shared K V} {x : Ent K V} {kind : Kind} (h : kind = .timed ttl res) :
    expiredAt O kind g x.time = decide (elapsed O res x.node g.ticks > ttl) := by
  subst h; rfl

/-! ### C39 -/

/-- C39. If an access succeeds on a timed cache then at the last clock reading of the call at most the time to live
has passed since the time stamp of the entry. -/
theorem C39_hit_is_fresh (hO : NoListFault O) (h : Reachable O s) (hk : s.c.kind = .timed ttl res)
    (ha : op.Accesses k) (hd : Returns O op s r s') (hh : ¬ Miss r) :
    ∃ x n, entryFor s.c k = some x ∧ Hit op r x ∧ s.g.ticks ≤ n ∧ s'.g.ticks = n + 1 ∧ elapsed O res x n ≤ ttl := by
  obtain ⟨t, t', hr, ht, ho, hr'⟩ := h.access hO ha hd
  have hk' : t.c.kind = .timed ttl res := by rw [← hr.rep.kind, hk]
  cases ho with
  | last x r h1 h2 h3 h4 =>
    rw [expiredAt_timed hk'] at h3
    refine ⟨x.node, s.g.ticks, by rw [hr.entryFor, h2]; rfl, h4, Nat.le_refl _, ?_, ?_⟩
    · rw [hr'.g, hr.g]; show t.g.ticks + t.c.kind.reads = _; rw [hk']; rfl
    · rw [hr.g]; simpa using h3
  | hit x r j h1 h2 h3 h4 h5 =>
    rw [expiredAt_timed hk'] at h2
    have hg : s'.g.ticks = s.g.ticks + 1 + j := by
      rw [hr'.g, hr.g]; show t.g.ticks + t.c.kind.reads + j = _; rw [hk']; rfl
    rcases h4 with rfl | h4
    · exact ⟨x.node, s.g.ticks, by rw [hr.entryFor, h1]; rfl, h3, Nat.le_refl _, hg, by rw [hr.g]; simpa using h2⟩
    · obtain ⟨hj, h6⟩ := h5 h4
      rw [expiredAt_timed hk'] at h6
      have h7 : (tickG t.c.kind t.g).ticks = s.g.ticks + 1 := by rw [hr.g]; show _ + t.c.kind.reads = _; rw [hk']; rfl
      rw [hk'] at hj
      refine ⟨x.node, s.g.ticks + 1, by rw [hr.entryFor, h1]; rfl, h3, Nat.le_succ _, by rw [hg, hj]; rfl, ?_⟩
      rw [h7] at h6
      simpa using h6
  | absent r _ h1 => exact absurd h1 hh
  | expired x r _ _ _ h1 => exact absurd h1 hh
  | lastExpired x => exact absurd (.inl rfl) hh

theorem evolves_elements {t t' : St (MCache K V) K V} (hr : Rel s t) (ht : Ok t) (hr' : Rel s' t')
    (hk : s.c.kind = .timed ttl res) (hev : Evolves O t t') {x : MapNode K V} (hx : x ∈ elements s'.c) :
    (∃ y ∈ elements s.c, y.addr = x.addr ∧ y.key = x.key ∧ y.info.time = x.info.time) ∨
    ((∀ y ∈ elements s.c, y.addr ≠ x.addr) ∧ s.g.next ≤ x.addr ∧
      ∃ n, s.g.ticks ≤ n ∧ n < s'.g.ticks ∧ x.info.time = O.clock n) := by
  rw [hr'.elements] at hx
  obtain ⟨e, he, rfl⟩ := List.mem_map.1 hx
  rcases hev.ents e he with ⟨y, hy, hyx⟩ | ⟨h1, h2⟩
  · exact .inl ⟨y.node, by rw [hr.elements]; exact List.mem_map.2 ⟨y, hy, rfl⟩, hyx.id, hyx.key, hyx.time⟩
  · refine .inr ⟨?_, by rw [hr.g]; exact h1, ?_⟩
    · intro y hy
      rw [hr.elements] at hy
      obtain ⟨d, hd, rfl⟩ := List.mem_map.1 hy
      have := (ht.awf.lt d hd).1
      show d.id ≠ e.id
      intro h3
      rw [h3] at this
      exact absurd (Nat.lt_of_lt_of_le this h1) (Nat.lt_irrefl _)
    · rw [← hr.rep.kind, hk] at h2
      rw [hr.g, hr'.g]
      exact h2

/-- C39. The time stamp of an entry is the clock reading made by the call that created it: a call creates entries
only with a reading made during the call, and never changes the time stamp of an existing entry. -/
theorem C39_time_stamps (hO : NoListFault O) (h : Reachable O s) (hk : s.c.kind = .timed ttl res)
    (hd : Returns O op s r s' ∨ Throws O op s e s') {x : MapNode K V} (hx : x ∈ elements s'.c) :
    (∃ y ∈ elements s.c, y.addr = x.addr ∧ y.key = x.key ∧ y.info.time = x.info.time) ∨
    ((∀ y ∈ elements s.c, y.addr ≠ x.addr) ∧ s.g.next ≤ x.addr ∧
      ∃ n, s.g.ticks ≤ n ∧ n < s'.g.ticks ∧ x.info.time = O.clock n) := by
  rcases hd with hd | hd
  · obtain ⟨t, t', hr, ht, hr', hev⟩ := h.within evolves_elem hO hd
    exact evolves_elements hr ht hr' hk hev hx
  · obtain ⟨t, t', hr, ht, hr', hev⟩ := h.withinThrow evolves_elem hO hd
    exact evolves_elements hr ht hr' hk hev hx

/-- C39. Every time stamp is a past reading of the clock. -/
theorem C39_time_stamp_is_past (hO : NoListFault O) (h : Reachable O s) (hk : s.c.kind = .timed ttl res)
    {x : MapNode K V} (hx : x ∈ elements s.c) : ∃ n, n < s.g.ticks ∧ x.info.time = O.clock n := by
  have h1 := stamped_inv.reachable hO h
  obtain ⟨t, hr, ht⟩ := h.rel hO
  rw [hr.elements] at hx
  have h2 := h1 x (hr.rep.map.mem_iff.2 hx)
  rw [hk] at h2
  obtain ⟨n, _, h3, h4⟩ := h2
  exact ⟨n, h3, h4⟩

/-! ### C40 -/

/-- C40. A stored entry that has not expired at the clock readings of the call is served by `contains`, `find` and
`lookup`. (Only `lookup` reads the clock a second time.) -/
theorem C40_fresh_is_served (hO : NoListFault O) (hC : NoCallbackFault O) (h : Reachable O s)
    (hk : s.c.kind = .timed ttl res) {x : MapNode K V} (hx : entryFor s.c k = some x)
    (h1 : elapsed O res x s.g.ticks ≤ ttl) (ha : op.Accesses k)
    (h2 : op = .lookup k → elapsed O res x (s.g.ticks + 1) ≤ ttl) :
    ∃ r s', Returns O op s r s' ∧ Hit op r x := by
  obtain ⟨t, hr, ht⟩ := h.rel hO
  have hk' : t.c.kind = .timed ttl res := by rw [← hr.rep.kind, hk]
  obtain ⟨y, hy, rfl⟩ := hr.entryFor_some hx
  have e1 : expiredAt O t.c.kind t.g y.time = false := by
    rw [expiredAt_timed hk', ← hr.g]; simpa using h1
  have e2 : op = .lookup k → expiredAt O t.c.kind (tickG t.c.kind t.g) y.time = false := by
    intro hop
    have h7 : (tickG t.c.kind t.g).ticks = s.g.ticks + 1 := by rw [hr.g]; show _ + t.c.kind.reads = _; rw [hk']; rfl
    rw [expiredAt_timed hk', h7]; simpa using h2 hop
  rcases mid_access (O := O) ht ha with ⟨r, t', h5, h6⟩ | ⟨e, t', h5, h6⟩
  · obtain ⟨s', h7, _⟩ := hr.back_ok hO h5
    refine ⟨r, s', h7, ?_⟩
    cases h6 with
    | last e r h1 h2 h3 h4 => rw [hy] at h2; injection h2 with h2; subst h2; exact h4
    | hit e r j h1 h2 h3 _ _ => rw [hy] at h1; injection h1 with h1; subst h1; exact h3
    | absent r h1 => rw [hy] at h1; cases h1
    | expired e r h1 _ h2 => rw [hy] at h1; injection h1 with h1; subst h1; rw [e1] at h2; cases h2
    | lastExpired e _ _ h1 h2 => rw [hy] at h1; injection h1 with h1; subst h1; rw [e1] at h2; cases h2
  · cases h6 with
    | hitUser _ n cb _ _ _ h1 => rw [hC] at h1; cases h1
    | missUser n cb _ _ h1 => rw [hC] at h1; cases h1
    | expiredUser _ n cb _ _ _ h1 => rw [hC] at h1; cases h1
    | notFound _ h1 => rw [hy] at h1; cases h1
    | expired e _ _ h1 h2 => rw [hy] at h1; injection h1 with h1; subst h1; rw [e1] at h2; cases h2
    | lastExpired e _ _ h1 h2 => rw [hy] at h1; injection h1 with h1; subst h1; rw [e1] at h2; cases h2
    | lateExpired e h0 _ h1 _ h2 => rw [hy] at h1; injection h1 with h1; subst h1; rw [e2 h0] at h2; cases h2

/-! ### C41 -/

/-- C41 for keys that were not stored: the entry made by the insertion carries the time of the insertion. With
`C39_time_stamps` (the time stamp stays) and `C40_fresh_is_served` it is therefore served until the time to live has
elapsed since the insertion. Missing: keys that are already stored, for which the claim is false
(`C41_reinsertion_does_not_restart`). -/
theorem C41_new_key_starts_time_to_live_partial (hO : NoListFault O) (h : Reachable O s)
    (hk : s.c.kind = .timed ttl res) (hc : s.c.capacity ≠ some 0) (hn : ¬ Stored s.c k) (hi : op.Inserts k v)
    (hd : Returns O op s r s') :
    ∃ x, entryFor s'.c k = some x ∧ x.info.time = O.clock s.g.ticks ∧ s'.g.ticks = s.g.ticks + 1 := by
  obtain ⟨t, t', b, p, hr, ht, ho, hr', rfl⟩ := h.inserts hO hi hd
  have hk' : t.c.kind = .timed ttl res := by rw [← hr.rep.kind, hk]
  rw [hr.not_stored] at hn
  have key : ∀ (l : List (Ent K V)) (x : Ent K V), (∀ y ∈ l, y ∈ t.c.ents) → x.key = k →
      (l ++ [x]).find? (fun e => keq e.key k) = some x := by
    intro l x hl hx
    rw [List.find?_append]
    have : l.find? (fun e => keq e.key k) = none := by
      rw [List.find?_eq_none] at hn ⊢
      exact fun y hy => hn y (hl y hy)
    rw [this, List.find?_cons]
    simp [hx, KeyEqual.refl]
  cases ho with
  | zero h0 => exact absurd (by rw [hr.rep.cap, h0]) hc
  | full g' e l n _ _ hl _ q _ hx =>
    refine ⟨_, by rw [hr'.entryFor, key l _ (fun y hy => by rw [hl]; exact List.mem_cons_of_mem _ hy) rfl]; rfl, ?_, ?_⟩
    · show t.c.kind.stamp (O.clock t.g.ticks) = _; rw [hk', hr.g]; rfl
    · rw [hr'.g, hr.g]; show g'.ticks = _; rw [hx.2, hk']; rfl
  | room g' n q _ _ _ _ _ _ hx =>
    refine ⟨_, by rw [hr'.entryFor, key _ _ (fun y hy => hy) rfl]; rfl, ?_, ?_⟩
    · show t.c.kind.stamp (O.clock t.g.ticks) = _; rw [hk', hr.g]; rfl
    · rw [hr'.g, hr.g]; show g'.ticks = _; rw [hx.2.2, hk']; rfl
  | update g' e n hf => rw [hn] at hf; cases hf

/-- C41, what the code does instead for a key that is stored: the entry gets the value, and keeps its time stamp, and its
address, whether it has expired or not. -/
theorem C41_stored_key_keeps_time (hO : NoListFault O) (h : Reachable O s) {x : MapNode K V}
    (hx : entryFor s.c k = some x) (hi : op.Inserts k v) (hd : Returns O op s r s') :
    ∃ y, entryFor s'.c k = some y ∧ y.addr = x.addr ∧ y.key = x.key ∧ y.info.time = x.info.time ∧ y.info.value = v ∧
      s'.g.ticks = s.g.ticks := by
  obtain ⟨t, t', b, p, hr, ht, ho, hr', rfl⟩ := h.inserts hO hi hd
  obtain ⟨e, he, rfl⟩ := hr.entryFor_some hx
  cases ho with
  | zero h0 =>
    have h1 := ht.awf.bound 0 h0
    have h2 := List.length_pos_of_mem (List.mem_of_find?_eq_some he)
    omega
  | full g' _ l n hn => rw [hn] at he; cases he
  | room g' n q hn => rw [hn] at he; cases he
  | update g' e' n hf hc q hg =>
    rw [hf] at he
    injection he with he
    subst he
    refine ⟨{ e' with val := v }.node, ?_, rfl, rfl, rfl, rfl, by rw [hr'.g, hr.g]; exact hg.2⟩
    rw [hr'.entryFor]
    show Option.map _ ((without e' t.c.ents ++ [{ e' with val := v }]).find? (fun e : Ent K V => keq e.key k)) = _
    rw [List.find?_append, ht.without_eq hf]
    have h1 : (t.c.ents.filter (fun x => !keq x.key k)).find? (fun e => keq e.key k) = none := by
      rw [List.find?_eq_none]
      intro y hy
      have := (List.mem_filter.1 hy).2
      simpa using this
    rw [h1, List.find?_cons]
    have h2 := (find_mem hf).2
    simp [h2]

/-- A timed cache (time to live 3, one tick per reading). The key 1 was inserted at time 0; the next reading is 4. -/
def demoOld : List (WOp Nat Nat) :=
  [.create (.timed 3 1) (.sized 3), .op 0 (.insert 1 10), .op 0 (.contains 1), .op 0 (.contains 1), .op 0 (.contains 1)]

theorem demoOld_reachable : Reachable calmO (demoState calmO demoOld 0) :=
  demoState_reachable (by decide +kernel) rfl

/-- Non-vacuity: the expired key 1 is inserted again; its entry has the new value and the old time. -/
example : ((Impl.step calmO (.insert 1 20) (demoState calmO demoOld 0)).state.bind fun s => entryFor s.c 1).map
    (fun y => (y.info.value, y.info.time)) = some (20, 0) ∧ (demoState calmO demoOld 0).g.ticks = 4 := by decide +kernel

/-- C41 is false: re-inserting a stored key does not restart its time to live. -/
theorem C41_reinsertion_does_not_restart :
    ¬ ∀ (O : Oracle Nat Nat) (s s' : St (Cache Nat Nat) Nat Nat) (op : Op Nat Nat) (k v : Nat) (r : Res Nat Nat)
        (ttl : Int) (res : Nat),
      Calm O → Steady O → Reachable O s → s.c.kind = .timed ttl res → s.c.capacity ≠ some 0 →
      op.Inserts k v → Returns O op s r s' → (O.clock s'.g.ticks - O.clock s.g.ticks).tdiv res ≤ ttl →
      ∃ s'', Returns O (.contains k) s' (.bool true) s'' := by
  intro h
  obtain ⟨s', h1, h2⟩ := Out.ok_fact (o := Impl.step calmO (.insert 1 20) (demoState calmO demoOld 0))
    (f := fun s' => (s'.g.ticks, (Impl.step calmO (.contains 1) s').result)) (a := .inserted false (some 0))
    (y := (4, some (.bool false))) (by decide +kernel) (by decide +kernel)
  injection h2 with h2 h3
  obtain ⟨s'', h4⟩ := h calmO _ s' _ 1 20 _ 3 1 calmO_calm calmO_steady demoOld_reachable (by decide +kernel)
    (by decide +kernel) (.inl rfl) h1
    (by rw [h2, show (demoState calmO demoOld 0).g.ticks = 4 by decide +kernel]; decide)
  rw [show Impl.step calmO (.contains 1) s' = _ from h4] at h3
  simp [Out.result] at h3

/-! ### C42, C43 -/

theorem tdiv_mono (a b : Int) (n : Nat) (h : a ≤ b) : a.tdiv n ≤ b.tdiv n := by
  rcases Nat.eq_zero_or_pos n with rfl | hn
  · simp
  · exact Int.tdiv_le_tdiv (by omega) h

/-- An entry with a later time stamp expires later. -/
theorem elapsed_anti {x y : MapNode K V} (h : x.info.time ≤ y.info.time) (n : Nat) :
    elapsed O res y n ≤ elapsed O res x n := tdiv_mono _ _ _ (by omega)

theorem elapsed_mono (hS : Steady O) {x : MapNode K V} {m n : Nat} (h : m ≤ n) :
    elapsed O res x m ≤ elapsed O res x n := tdiv_mono _ _ _ (by have := hS m n h; omega)

/-- C42, the part that always holds: `all_expired()` tells whether the most recently used entry has expired (true
for the empty cache). In particular it returns true whenever all entries have expired. -/
theorem C42_all_expired_tests_most_recent (hO : NoListFault O) (h : Reachable O s) (hk : s.c.kind = .timed ttl res) :
    ∃ b s', Returns O .allExpired s (.bool b) s' ∧
      (b = true ↔ ∀ x, (elements s.c).getLast? = some x → elapsed O res x s.g.ticks > ttl) ∧
      ((∀ x ∈ elements s.c, elapsed O res x s.g.ticks > ttl) → b = true) := by
  obtain ⟨t, hr, ht⟩ := h.rel hO
  have hk' : t.c.kind = .timed ttl res := by rw [← hr.rep.kind, hk]
  have he := allExpired_eq (O := O) ht
  have key : ∃ b s', Returns O .allExpired s (.bool b) s' ∧
      (b = true ↔ ∀ x, (elements s.c).getLast? = some x → elapsed O res x s.g.ticks > ttl) := by
    cases hl : t.c.ents.getLast? with
    | none =>
      rw [hl] at he
      obtain ⟨s', h1, _⟩ := hr.back_ok (op := .allExpired) hO (bind_ok he)
      refine ⟨true, s', h1, ?_⟩
      rw [hr.elements, List.getLast?_map, hl]
      simp
    | some e =>
      rw [hl] at he
      obtain ⟨s', h1, _⟩ := hr.back_ok (op := .allExpired) hO (bind_ok he)
      refine ⟨_, s', h1, ?_⟩
      rw [hr.elements, List.getLast?_map, hl, expiredAt_timed hk', hr.g]
      simp
  obtain ⟨b, s', h1, h2⟩ := key
  exact ⟨b, s', h1, h2, fun h3 => h2.2 fun x hx => h3 x (List.mem_of_getLast? hx)⟩

/-- C42 for caches whose entries are ordered by time stamp (no lookup or update has moved an entry ahead of a
younger one). Missing: other caches, for which the claim is false (`C42_all_expired_wrong_after_lookup`). -/
theorem C42_all_expired_partial (hO : NoListFault O) (h : Reachable O s) (hk : s.c.kind = .timed ttl res)
    (hs : SortedByTime s.c) :
    ∃ b s', Returns O .allExpired s (.bool b) s' ∧
      (b = true ↔ ∀ x ∈ elements s.c, elapsed O res x s.g.ticks > ttl) := by
  obtain ⟨b, s', h1, h2, h3⟩ := C42_all_expired_tests_most_recent hO h hk
  refine ⟨b, s', h1, fun hb x hx => ?_, h3⟩
  cases hl : (elements s.c).getLast? with
  | none => rw [List.getLast?_eq_none_iff] at hl; rw [hl] at hx; cases hx
  | some y =>
    have h4 := h2.1 hb y hl
    have h5 : x.info.time ≤ y.info.time := by
      obtain ⟨l, hl'⟩ := List.getLast?_eq_some_iff.1 hl
      unfold SortedByTime at hs
      rw [hl'] at hx hs
      rcases List.mem_append.1 hx with hx | hx
      · exact (List.pairwise_append.1 hs).2.2 x hx y (by simp)
      · rw [List.mem_singleton.1 hx]; exact Int.le_refl _
    have := elapsed_anti (O := O) (res := res) h5 s.g.ticks
    omega

/-- Time to live 2, one tick per reading: 1 was inserted at time 0, 2 at time 1, and 1 was found at time 2. The
next reading is 3: now 1 has expired and 2 has not, but 1 is the most recently used entry. -/
def demoMoved : List (WOp Nat Nat) :=
  [.create (.timed 2 1) (.sized 3), .op 0 (.insert 1 10), .op 0 (.insert 2 20), .op 0 (.find 1)]

theorem demoMoved_reachable : Reachable calmO (demoState calmO demoMoved 0) :=
  demoState_reachable (by decide +kernel) rfl

/-- C42 is false: after a lookup `all_expired()` returns true although a fresh entry is stored. -/
theorem C42_all_expired_wrong_after_lookup :
    ¬ ∀ (O : Oracle Nat Nat) (s s' : St (Cache Nat Nat) Nat Nat) (b : Bool) (ttl : Int) (res : Nat),
      Calm O → Steady O → Reachable O s → s.c.kind = .timed ttl res → Returns O .allExpired s (.bool b) s' →
      (b = true ↔ ∀ x ∈ elements s.c, elapsed O res x s.g.ticks > ttl) := by
  intro h
  obtain ⟨s', h1⟩ := Out.ok_of (o := Impl.step calmO .allExpired (demoState calmO demoMoved 0)) (a := .bool true)
    (by decide +kernel)
  have h2 := (h calmO _ s' true 2 1 calmO_calm calmO_steady demoMoved_reachable (by decide +kernel) h1).1 rfl
  revert h2
  decide +kernel

/-- C43, the part that always holds: `clear_expired()` terminates, removes a number of least recently used entries
and returns that number; each of them had expired when it was tested (the entries are tested one after the other,
each with a new clock reading), and the first entry that it keeps had not. -/
theorem C43_clear_expired_removes_only_expired (hO : NoListFault O) (h : Reachable O s)
    (hk : s.c.kind = .timed ttl res) :
    ∃ m s', Returns O .clearExpired s (.nat m) s' ∧ m ≤ count s.c ∧ elements s'.c = (elements s.c).drop m ∧
      (∀ i x, i < m → (elements s.c)[i]? = some x → elapsed O res x (s.g.ticks + i) > ttl) ∧
      (∀ x, (elements s.c)[m]? = some x → elapsed O res x (s.g.ticks + m) ≤ ttl) ∧
      s'.g.ticks = s.g.ticks + (if m < count s.c then m + 1 else m) ∧
      s'.c.capacity = s.c.capacity ∧ s'.c.kind = s.c.kind ∧ s'.c.obs = s.c.obs := by
  obtain ⟨t, hr, ht⟩ := h.rel hO
  have hk' : t.c.kind = .timed ttl res := by rw [← hr.rep.kind, hk]
  obtain ⟨m, h1, h2, h3, h4⟩ := clearExpired_eq (O := O) ht
  obtain ⟨s', h5, hr'⟩ := hr.back_ok (op := .clearExpired) hO (bind_ok h4)
  have hti : ∀ i, (ticksG t.c.kind i t.g).ticks = s.g.ticks + i := by
    intro i; rw [hr.g]; show _ + i * t.c.kind.reads = _; rw [hk']; simp [Kind.reads]
  refine ⟨m, s', h5, by rw [hr.count]; exact h1, ?_, ?_, ?_, ?_, ?_, ?_, ?_⟩
  · rw [hr'.elements, hr.elements, ← List.map_drop]; rfl
  · intro i x hi hx
    rw [hr.elements, List.getElem?_map] at hx
    cases hg : t.c.ents[i]? with
    | none => rw [hg] at hx; cases hx
    | some e =>
      rw [hg] at hx
      injection hx with hx
      subst hx
      have := h2 i e hi hg
      rw [expiredAt_timed hk', hti] at this
      simpa using this
  · intro x hx
    rw [hr.elements, List.getElem?_map] at hx
    cases hg : t.c.ents[m]? with
    | none => rw [hg] at hx; cases hx
    | some e =>
      rw [hg] at hx
      injection hx with hx
      subst hx
      have := h3 e hg
      rw [expiredAt_timed hk', hti] at this
      simpa using this
  · rw [hr'.g, hr.count]
    exact hti _
  · rw [hr'.rep.cap, hr.rep.cap]; rfl
  · rw [hr'.rep.kind, hr.rep.kind]; rfl
  · rw [hr'.rep.obs, hr.rep.obs]; rfl

/-- C43 for caches whose entries are ordered by time stamp: every entry that had expired when the call started is
removed, and every entry that has not expired at the last clock reading of the call is kept. Missing: other
caches, for which the claim is false (`C43_clear_expired_misses_expired`). -/
theorem C43_clear_expired_partial (hO : NoListFault O) (hS : Steady O) (h : Reachable O s)
    (hk : s.c.kind = .timed ttl res) (hs : SortedByTime s.c) (hd : Returns O .clearExpired s r s') :
    (∀ x ∈ elements s.c, elapsed O res x s.g.ticks > ttl → x ∉ elements s'.c) ∧
    (∀ x ∈ elements s.c, elapsed O res x (s'.g.ticks - 1) ≤ ttl → x ∈ elements s'.c) ∧
    (elements s'.c).Sublist (elements s.c) ∧ r = .nat (count s.c - count s'.c) := by
  obtain ⟨m, s1, h1, h2, h3, h4, h5, h6, -⟩ := C43_clear_expired_removes_only_expired hO h hk
  have hd' : Out.ok r s' = .ok (.nat m) s1 := hd ▸ h1
  injection hd' with hd1 hd2
  subst hd1 hd2
  have hlen : count s'.c = count s.c - m := by unfold count; rw [h3, List.length_drop]
  refine ⟨?_, ?_, ?_, ?_⟩
  · intro x _ he hx
    rw [h3] at hx
    cases hm : (elements s.c)[m]? with
    | none =>
      rw [List.getElem?_eq_none_iff] at hm
      rw [List.drop_of_length_le hm] at hx
      cases hx
    | some y =>
      have hy := h5 y hm
      have hle : y.info.time ≤ x.info.time := by
        have hs' : ((elements s.c).drop m).Pairwise _ := hs.drop
        have hmlt : m < (elements s.c).length := (List.getElem?_eq_some_iff.1 hm).1
        rw [List.drop_eq_getElem_cons hmlt] at hs' hx
        have hym : (elements s.c)[m] = y := (List.getElem?_eq_some_iff.1 hm).2
        rw [hym] at hs' hx
        rcases List.mem_cons.1 hx with rfl | hx
        · exact Int.le_refl _
        · exact (List.pairwise_cons.1 hs').1 x hx
      have e1 := elapsed_anti (O := O) (res := res) hle (s.g.ticks + m)
      have e2 := elapsed_mono (res := res) hS (x := x) (Nat.le_add_right s.g.ticks m)
      omega
  · intro x hx he
    rw [h3]
    obtain ⟨i, hi⟩ := List.mem_iff_getElem?.1 hx
    by_cases him : i < m
    · exfalso
      have e1 := h4 i x him hi
      have e2 := elapsed_mono (res := res) hS (x := x) (m := s.g.ticks + i) (n := s'.g.ticks - 1) (by
        rw [h6]; split <;> omega)
      omega
    · have : ((elements s.c).drop m)[i - m]? = some x := by
        rw [List.getElem?_drop, show m + (i - m) = i by omega, hi]
      exact List.mem_of_getElem? this
  · rw [h3]; exact List.drop_sublist _ _
  · congr 1
    rw [hlen]
    omega

/-- C43 is false: after a lookup `clear_expired()` keeps an expired entry. -/
theorem C43_clear_expired_misses_expired :
    ¬ ∀ (O : Oracle Nat Nat) (s s' : St (Cache Nat Nat) Nat Nat) (r : Res Nat Nat) (ttl : Int) (res : Nat),
      Calm O → Steady O → Reachable O s → s.c.kind = .timed ttl res → Returns O .clearExpired s r s' →
      ∀ x ∈ elements s.c, elapsed O res x s.g.ticks > ttl → x ∉ elements s'.c := by
  intro h
  obtain ⟨s', h1, h2⟩ := Out.ok_fact (o := Impl.step calmO .clearExpired (demoState calmO demoMoved 0))
    (a := .nat 0) (f := fun s' => elements s'.c) (y := elements (demoState calmO demoMoved 0).c)
    (by decide +kernel) (by decide +kernel)
  have h3 := h calmO _ s' _ 2 1 calmO_calm calmO_steady demoMoved_reachable (by decide +kernel) h1
  rw [h2] at h3
  revert h3
  decide +kernel

/-! ### The hypotheses are met -/

/-- C39, C40: in a timed cache with time to live 2 the key 2, inserted at time 1, is found at time 3. -/
example : (demoState calmO demoMoved 0).c.kind = .timed 2 1 ∧
    entryFor (demoState calmO demoMoved 0).c 2 = some ⟨2, 2, ⟨20, some 3, 1⟩⟩ ∧
    elapsed calmO 1 (⟨2, 2, ⟨20, some 3, 1⟩⟩ : MapNode Nat Nat) (demoState calmO demoMoved 0).g.ticks = 2 ∧
    (Impl.step calmO (.contains 2) (demoState calmO demoMoved 0)).result = some (.bool true) := by decide +kernel

/-- C41: a new key starts with a full time to live. -/
example : ¬ Stored (demoState calmO demoMoved 0).c 5 ∧ (demoState calmO demoMoved 0).c.capacity = some 3 ∧
    ((Impl.step calmO (.insert 5 50) (demoState calmO demoMoved 0)).state.map fun s' => entryFor s'.c 5) =
      some (some ⟨4, 5, ⟨50, some 5, 3⟩⟩) := by
  refine ⟨?_, ?_, ?_⟩ <;> (try unfold Stored) <;> decide +kernel

/-- C42, C43: two entries, sorted by time; at the next reading (3) the first has expired and the second has not. -/
def demoSorted : List (WOp Nat Nat) :=
  [.create (.timed 2 1) (.sized 3), .op 0 (.insert 1 10), .op 0 (.hasExpired 1), .op 0 (.insert 2 20)]

example :
    (Impl.step calmO .allExpired (demoState calmO demoSorted 0)).result = some (.bool false) ∧
    (Impl.step calmO .clearExpired (demoState calmO demoSorted 0)).result = some (.nat 1) ∧
    ((Impl.step calmO .clearExpired (demoState calmO demoSorted 0)).state.map fun s' => entries s'.c) = some [(2, 20)] := by
  decide +kernel

example : SortedByTime (demoState calmO demoSorted 0).c := by
  unfold SortedByTime
  rw [show elements (demoState calmO demoSorted 0).c = [⟨0, 1, ⟨10, some 1, 0⟩⟩, ⟨2, 2, ⟨20, some 3, 2⟩⟩] by decide +kernel]
  simp

end LRU
