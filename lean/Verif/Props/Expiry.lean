import Verif.Props.Timed
import Verif.Proofs.KeepEnts
/-!
# Expired entries: C44–C48
-/

set_option linter.unusedSectionVars false
set_option autoImplicit false

namespace LRU

variable {K V : Type} [KeyEqual K] [DecidableEq K] [DecidableEq V] {O : Oracle K V}
  {s s' s'' : St (Cache K V) K V} {op : Op K V} {r : Res K V} {k : K} {v : V} {e : Err} {ttl : Int} {res : Nat}

/-! ### C44 -/

theorem lastMatches_of_last {t : St (MCache K V) K V} (ht : Ok t) {x : Ent K V}
    (hf : t.c.ents.find? (fun y => keq y.key k) = some x) : t.c.lastMatches k = true ↔ t.c.last = some x.id := by
  obtain ⟨hx, hk⟩ := find_mem hf
  constructor
  · intro h
    obtain ⟨y, h1, h2⟩ := ht.lastMatches_find h
    rw [hf] at h2
    injection h2 with h2
    subst h2
    exact (lastEnt_mem h1).2
  · intro h
    obtain ⟨y, hy, h1, h2⟩ := ht.lastEnt h
    have := map_inj_of_nodup ht.awf.ids y hy x hx h1
    subst this
    exact lastMatches_iff.2 ⟨y, h2, by rw [keq_comm]; exact hk⟩

/-- C44, complete description of accesses to an expired key `k` when callbacks do not throw. `find` behaves as for an
absent key. `contains` returns `false` and `lookup` throws, and both leave the cache alone; they register the miss (and
`lookup` throws `KeyNotFound`) unless the entry is the last accessed one, in which case they register nothing (and
`lookup` throws `KeyExpired`). Missing: the registration in this last case, which the code does not do
(`C44_expired_last_accessed_not_registered`). -/
theorem C44_expired_is_a_miss_partial (hO : NoListFault O) (hC : NoCallbackFault O) (h : Reachable O s)
    (hk : s.c.kind = .timed ttl res) {x : MapNode K V} (hx : entryFor s.c k = some x)
    (he : elapsed O res x s.g.ticks > ttl) :
    (∃ s', Returns O (.find k) s (.pos none) s' ∧ SameCache s.c s'.c ∧ MissRecorded s s' k) ∧
    (∃ s', Returns O (.contains k) s (.bool false) s' ∧ SameCache s.c s'.c ∧
      (s.c.last ≠ some x.addr → MissRecorded s s' k) ∧ (s.c.last = some x.addr → NothingRecorded s s')) ∧
    (∃ e s', Throws O (.lookup k) s e s' ∧ SameCache s.c s'.c ∧
      (s.c.last ≠ some x.addr → e = .keyNotFound ∧ MissRecorded s s' k) ∧
      (s.c.last = some x.addr → e = .keyExpired ∧ NothingRecorded s s')) := by
  obtain ⟨t, hr, ht⟩ := h.rel hO
  have hk' : t.c.kind = .timed ttl res := by rw [← hr.rep.kind, hk]
  obtain ⟨y, hy, rfl⟩ := hr.entryFor_some hx
  have e1 : expiredAt O t.c.kind t.g y.time = true := by
    rw [expiredAt_timed hk', ← hr.g]; simpa using he
  have hlast : s.c.last = some y.node.addr ↔ t.c.lastMatches k = true := by
    rw [lastMatches_of_last ht hy, hr.rep.last]; rfl
  have key : ∀ op : Op K V, op.Accesses k →
      (∃ r s', Returns O op s r s' ∧ Miss r ∧ SameCache s.c s'.c ∧
        ((MissRecorded s s' k ∧ (t.c.lastMatches k = false ∨ op = .find k)) ∨
         (NothingRecorded s s' ∧ t.c.lastMatches k = true ∧ op = .contains k))) ∨
      (∃ e s', Throws O op s e s' ∧ op = .lookup k ∧ SameCache s.c s'.c ∧
        ((MissRecorded s s' k ∧ e = .keyNotFound ∧ t.c.lastMatches k = false) ∨
         (NothingRecorded s s' ∧ e = .keyExpired ∧ t.c.lastMatches k = true))) := by
    intro op ha
    rcases mid_access (O := O) ht ha with ⟨r, t', h5, h6⟩ | ⟨e, t', h5, h6⟩
    · obtain ⟨s', h7, hr'⟩ := hr.back_ok hO h5
      refine .inl ⟨r, s', h7, ?_⟩
      cases h6 with
      | last e r _ h2 h3 => rw [hy] at h2; injection h2 with h2; subst h2; rw [e1] at h3; cases h3
      | hit e r j h2 h3 => rw [hy] at h2; injection h2 with h2; subst h2; rw [e1] at h3; cases h3
      | absent r h1 => rw [hy] at h1; cases h1
      | expired e r h1 h2 _ h4 =>
        exact ⟨h4, hr.same hr' rfl rfl rfl rfl, .inl ⟨hr.miss hr' rfl rfl, h2⟩⟩
      | lastExpired e h1 h2 h3 =>
        refine ⟨.inl rfl, hr.same hr' rfl rfl rfl rfl, .inr ⟨hr.silent hr' rfl rfl, ?_, h1⟩⟩
        exact lastMatches_iff.2 ⟨e, h2, by rw [keq_comm]; exact (find_mem h3).2⟩
    · obtain ⟨s', h7, hr'⟩ := hr.back_throw hO h5
      refine .inr ⟨e, s', h7, ?_⟩
      cases h6 with
      | hitUser _ n cb _ _ _ h1 => rw [hC] at h1; cases h1
      | missUser n cb _ _ h1 => rw [hC] at h1; cases h1
      | expiredUser _ n cb _ _ _ h1 => rw [hC] at h1; cases h1
      | notFound _ h1 => rw [hy] at h1; cases h1
      | lateExpired e _ _ h1 h2 => rw [hy] at h1; injection h1 with h1; subst h1; rw [e1] at h2; cases h2
      | expired e h0 h1 =>
        exact ⟨h0, hr.same hr' rfl rfl rfl rfl, .inl ⟨hr.miss hr' rfl rfl, rfl, h1⟩⟩
      | lastExpired e h0 h2 h3 =>
        refine ⟨h0, hr.same hr' rfl rfl rfl rfl, .inr ⟨hr.silent hr' rfl rfl, rfl, ?_⟩⟩
        exact lastMatches_iff.2 ⟨e, h2, by rw [keq_comm]; exact (find_mem h3).2⟩
  refine ⟨?_, ?_, ?_⟩
  · rcases key (.find k) (.inr (.inl rfl)) with ⟨r, s', h1, h2, h3, h4⟩ | ⟨e, s', _, h2, _⟩
    · have h5 : r = .pos none := by
        rcases h2 with rfl | rfl
        · obtain ⟨a, _, h6⟩ := ret_ok_inv h1; cases h6
        · rfl
      subst h5
      rcases h4 with ⟨h4, _⟩ | ⟨_, _, h4⟩
      · exact ⟨s', h1, h3, h4⟩
      · cases h4
    · cases h2
  · rcases key (.contains k) (.inl rfl) with ⟨r, s', h1, h2, h3, h4⟩ | ⟨e, s', _, h2, _⟩
    · have h5 : r = .bool false := by
        rcases h2 with rfl | rfl
        · rfl
        · obtain ⟨a, _, h6⟩ := ret_ok_inv h1; cases h6
      subst h5
      refine ⟨s', h1, h3, fun h6 => ?_, fun h6 => ?_⟩
      · rcases h4 with ⟨h4, _⟩ | ⟨_, h4, _⟩
        · exact h4
        · exact absurd (hlast.2 h4) h6
      · rcases h4 with ⟨_, h4⟩ | ⟨h4, _⟩
        · rcases h4 with h4 | h4
          · rw [hlast.1 h6] at h4; cases h4
          · cases h4
        · exact h4
    · cases h2
  · rcases key (.lookup k) (.inr (.inr rfl)) with ⟨r, s', h1, h2, _⟩ | ⟨e, s', h1, _, h3, h4⟩
    · exfalso
      rcases h2 with rfl | rfl <;> (obtain ⟨a, _, h6⟩ := ret_ok_inv h1; cases h6)
    · refine ⟨e, s', h1, h3, fun h6 => ?_, fun h6 => ?_⟩
      · rcases h4 with ⟨h4, h5, _⟩ | ⟨_, _, h4⟩
        · exact ⟨h5, h4⟩
        · exact absurd (hlast.2 h4) h6
      · rcases h4 with ⟨_, _, h4⟩ | ⟨h4, h5, _⟩
        · rw [hlast.1 h6] at h4; cases h4
        · exact ⟨h5, h4⟩

/-- A monitored cache with time to live 2, one tick per reading. Key 1, inserted at time 0, is the last accessed one.
The next reading is 3. -/
def demoExpired : List (WOp Nat Nat) :=
  [.create (.timed 2 1) (.sized 3), .op 0 (.monitorNew []), .op 0 (.addMissCallback 7), .op 0 (.insert 1 10),
   .op 0 (.hasExpired 1), .op 0 (.hasExpired 1)]

theorem demoExpired_reachable : Reachable calmO (demoState calmO demoExpired 0) :=
  demoState_reachable (by decide +kernel) rfl

/-- C44 is false: `contains` of an expired last accessed key counts no access and calls no miss callback. -/
theorem C44_expired_last_accessed_not_registered :
    ¬ ∀ (O : Oracle Nat Nat) (s s' : St (Cache Nat Nat) Nat Nat) (k : Nat) (x : MapNode Nat Nat) (ttl : Int) (res : Nat),
      Calm O → Steady O → Reachable O s → s.c.kind = .timed ttl res → entryFor s.c k = some x →
      elapsed O res x s.g.ticks > ttl → Returns O (.contains k) s (.bool false) s' → MissRecorded s s' k := by
  intro h
  obtain ⟨s', h1, h2⟩ := Out.ok_fact (o := Impl.step calmO (.contains 1) (demoState calmO demoExpired 0))
    (a := .bool false) (f := fun s' => s'.g.log) (y := []) (by decide +kernel) (by decide +kernel)
  obtain ⟨x, hx⟩ : ∃ x, entryFor (demoState calmO demoExpired 0).c 1 = some x := ⟨⟨0, 1, ⟨10, some 1, 0⟩⟩, by decide +kernel⟩
  have h3 : x = ⟨0, 1, ⟨10, some 1, 0⟩⟩ := by
    have : entryFor (demoState calmO demoExpired 0).c 1 = some ⟨0, 1, ⟨10, some 1, 0⟩⟩ := by decide +kernel
    rw [hx] at this; injection this
  subst h3
  have h4 := (h calmO _ s' 1 _ 2 1 calmO_calm calmO_steady demoExpired_reachable (by decide +kernel) hx
    (by decide +kernel) h1).log
  rw [h2] at h4
  revert h4
  decide +kernel

/-- C44 is false also for the exception: `lookup` of such a key throws `KeyExpired`, not `KeyNotFound`. -/
example : (Impl.step calmO (.lookup 1) (demoState calmO demoExpired 0)).err = some .keyExpired := by decide +kernel

/-- The case in which the miss is registered: the expired key is not the last accessed one. -/
example : ((Impl.step calmO (.contains 1) (demoState calmO (demoExpired ++ [.op 0 (.insert 2 20)]) 0)).state.map
    fun s' => (s'.g.log, (s'.g.stats 0).totalAccesses, (s'.g.stats 0).totalHits)) = some ([.miss 7 1], 1, 0) := by
  decide +kernel

/-! ### C45 -/

/-- C45, first part. `has_expired(k)` is false as long as at most the requested time to live has passed since the
entry got its time stamp (`s.c.kind = timedKind want res`: the constructor was given the duration `want`, in clock
ticks). -/
theorem C45_not_expired_within_requested_time (hO : NoListFault O) (h : Reachable O s) {want : Int}
    (hk : s.c.kind = timedKind want res) {x : MapNode K V} (hx : entryFor s.c k = some x)
    (ht : O.clock s.g.ticks - x.info.time ≤ want) :
    elapsed O res x s.g.ticks ≤ want.tdiv res ∧
    ∃ s', Returns O (.hasExpired k) s (.bool false) s' ∧ SameCache s.c s'.c := by
  have h0 : elapsed O res x s.g.ticks ≤ want.tdiv res := tdiv_mono _ _ _ ht
  refine ⟨h0, ?_⟩
  obtain ⟨t, hr, hok⟩ := h.rel hO
  have hk' : t.c.kind = .timed (want.tdiv res) res := by rw [← hr.rep.kind, hk]; rfl
  obtain ⟨y, hy, rfl⟩ := hr.entryFor_some hx
  have he := hasExpired_eq (O := O) (t := t) k
  rw [hy] at he
  have e1 : expiredAt O t.c.kind t.g y.time = false := by
    rw [expiredAt_timed hk', ← hr.g]; simpa using h0
  simp only [e1] at he
  obtain ⟨s', h1, hr'⟩ := hr.back_ok (op := .hasExpired k) hO (bind_ok he)
  exact ⟨s', h1, hr.same hr' rfl rfl rfl rfl⟩

/-- C45, second part. With a monotone clock an entry that has expired stays expired for as long as it is in the
cache, whatever calls are made: if `x` has expired at the `n`-th reading, made before state `s'`, then `has_expired`
for its key is true in `s'`. -/
theorem C45_expired_stays_expired (hO : NoListFault O) (hS : Steady O) (h : Reachable O s)
    (hk : s.c.kind = .timed ttl res) {x y : MapNode K V} {n : Nat} {calls : List (Call K V)}
    (hx : x ∈ elements s.c) (he : elapsed O res x n > ttl) (hh : History O s calls s') (hn : n ≤ s'.g.ticks)
    (hy : y ∈ elements s'.c) (ha : y.addr = x.addr) :
    elapsed O res y s'.g.ticks > ttl ∧ y.key = x.key ∧
    ∃ s'', Returns O (.hasExpired x.key) s' (.bool true) s'' := by
  obtain ⟨h1, h2⟩ := hh.same_entry hO h hx hy ha
  have h3 : elapsed O res y s'.g.ticks > ttl := by
    have e1 := elapsed_mono (res := res) hS (x := x) hn
    have e2 : elapsed O res y s'.g.ticks = elapsed O res x s'.g.ticks := by unfold elapsed; rw [h2]
    omega
  refine ⟨h3, h1, ?_⟩
  have h' := hh.reachable hO h
  obtain ⟨t, hr, hok⟩ := h'.rel hO
  have hk' : t.c.kind = .timed ttl res := by rw [← hr.rep.kind, (hh.grown hO h).kind, hk]
  obtain ⟨d, hd, rfl, hf⟩ := hr.ent_of_mem hok hy
  have hex := hasExpired_eq (O := O) (t := t) x.key
  rw [← h1, hf] at hex
  have e1 : expiredAt O t.c.kind t.g d.time = true := by
    rw [expiredAt_timed hk', ← hr.g]; simpa using h3
  simp only [e1] at hex
  rw [← h1]
  obtain ⟨s'', h4, _⟩ := hr.back_ok (op := .hasExpired d.node.key) hO (bind_ok hex)
  exact ⟨s'', h4⟩

/-- C45, third part, up to the resolution of the `Duration` type: an entry has expired once the requested time plus one
unit of `Duration` has passed, and, if one unit is one clock tick, as soon as the requested time has been exceeded.
Missing: exactness for coarser `Duration` types, which the code does not have (`C45_time_to_live_is_truncated`). -/
theorem C45_expires_partial (hO : NoListFault O) (h : Reachable O s) {want : Int} (hw : 0 ≤ want) (hres : 0 < res)
    (hk : s.c.kind = timedKind want res) {x : MapNode K V} (hx : entryFor s.c k = some x)
    (ht : want + res ≤ O.clock s.g.ticks - x.info.time ∨ (res = 1 ∧ want < O.clock s.g.ticks - x.info.time)) :
    ∃ s', Returns O (.hasExpired k) s (.bool true) s' ∧ SameCache s.c s'.c := by
  have h0 : elapsed O res x s.g.ticks > want.tdiv res := by
    have h1 : want + res ≤ O.clock s.g.ticks - x.info.time := by
      rcases ht with ht | ⟨rfl, ht⟩
      · exact ht
      · omega
    have h2 : (want + res).tdiv res ≤ elapsed O res x s.g.ticks := tdiv_mono _ _ _ h1
    rw [Int.tdiv_eq_ediv_of_nonneg (by omega), Int.add_ediv_of_dvd_right (Int.dvd_refl _),
      Int.ediv_self (by omega)] at h2
    rw [Int.tdiv_eq_ediv_of_nonneg hw]
    omega
  obtain ⟨t, hr, hok⟩ := h.rel hO
  have hk' : t.c.kind = .timed (want.tdiv res) res := by rw [← hr.rep.kind, hk]; rfl
  obtain ⟨y, hy, rfl⟩ := hr.entryFor_some hx
  have he := hasExpired_eq (O := O) (t := t) k
  rw [hy] at he
  have e1 : expiredAt O t.c.kind t.g y.time = true := by
    rw [expiredAt_timed hk', ← hr.g]; simpa using h0
  simp only [e1] at he
  obtain ⟨s', h1, hr'⟩ := hr.back_ok (op := .hasExpired k) hO (bind_ok he)
  exact ⟨s', h1, hr.same hr' rfl rfl rfl rfl⟩

/-- The clock advances by 19 ticks per reading. -/
def slowO : Oracle Nat Nat := { calmO with clock := fun n => 19 * n }

theorem slowO_steady : Steady slowO := by
  intro m n h
  show (19 * (m : Int)) ≤ 19 * n
  omega

/-- A cache whose `Duration` has units of 10 clock ticks, constructed with a time to live of 15 ticks. -/
def demoTruncated : List (WOp Nat Nat) := [.create (timedKind 15 10) (.sized 3), .op 0 (.insert 1 10)]

/-- C45 is false for coarse `Duration` types: 19 ticks after its insertion a key with a time to live of 15 ticks has
not expired, because both numbers are truncated to 1 unit. -/
theorem C45_time_to_live_is_truncated :
    ¬ ∀ (O : Oracle Nat Nat) (s s' : St (Cache Nat Nat) Nat Nat) (k : Nat) (x : MapNode Nat Nat) (want : Int)
      (res : Nat) (b : Bool), Calm O → Steady O → Reachable O s → 0 ≤ want → 0 < res → s.c.kind = timedKind want res →
      entryFor s.c k = some x → want < O.clock s.g.ticks - x.info.time → Returns O (.hasExpired k) s (.bool b) s' →
      b = true := by
  intro h
  obtain ⟨s', h1⟩ := Out.ok_of (o := Impl.step slowO (.hasExpired 1) (demoState slowO demoTruncated 0))
    (a := .bool false) (by decide +kernel)
  have := h slowO _ s' 1 ⟨0, 1, ⟨10, some 1, 0⟩⟩ 15 10 false (fun _ _ => rfl) slowO_steady
    (demoState_reachable (by decide +kernel) rfl) (by decide) (by decide) (by decide +kernel) (by decide +kernel)
    (by decide +kernel) h1
  cases this

/-- The hypotheses are met: 19 ticks (more than 15, less than 25) after insertion the key has not expired, 38 ticks
after insertion it has. -/
example : (demoState slowO demoTruncated 0).c.kind = timedKind 15 10 ∧
    (Impl.step slowO (.hasExpired 1) (demoState slowO (demoTruncated ++ [.op 0 (.hasExpired 1)]) 0)).result =
      some (.bool true) ∧
    (Impl.step slowO (.hasExpired 1) (demoState slowO [.create (timedKind 20 10) (.sized 3), .op 0 (.insert 1 10)] 0)).result =
      some (.bool false) := by decide +kernel

/-! ### C46 -/

/-- C46, where it holds: if `lookup(k)` throws one of the library's exceptions then no hit was counted and no callback
saw a hit, unless the entry expired between the two clock readings of this call. (When the entry is fresh at both
readings, `lookup` returns its value: `C40_fresh_is_served`.) Missing: that last case, in which the code does throw
after registering a hit (`C46_hit_registered_then_thrown`). -/
theorem C46_no_hit_if_lookup_throws_partial (hO : NoListFault O) (h : Reachable O s) (hd : Throws O (.lookup k) s e s')
    (he : e ≠ .user) :
    (MissRecorded s s' k ∨ NothingRecorded s s') ∨
    (e = .keyExpired ∧ ∃ ttl res x, s.c.kind = .timed ttl res ∧ entryFor s.c k = some x ∧
      elapsed O res x s.g.ticks ≤ ttl ∧ ttl < elapsed O res x (s.g.ticks + 1)) := by
  obtain ⟨t, t', hr, ht, ho, hr'⟩ := h.access_throw hO (.inr (.inr rfl)) hd
  cases ho with
  | hitUser => exact absurd rfl he
  | missUser => exact absurd rfl he
  | expiredUser => exact absurd rfl he
  | notFound => exact .inl (.inl (hr.miss hr' rfl rfl))
  | expired => exact .inl (.inl (hr.miss hr' rfl rfl))
  | lastExpired => exact .inl (.inr (hr.silent hr' rfl rfl))
  | lateExpired x _ _ h1 h2 h3 =>
    refine .inr ⟨rfl, ?_⟩
    cases hk : t.c.kind with
    | basic => rw [hk] at h3; cases h3
    | timed ttl res =>
      refine ⟨ttl, res, x.node, by rw [hr.rep.kind, hk], by rw [hr.entryFor, h1]; rfl, ?_, ?_⟩
      · rw [expiredAt_timed hk, ← hr.g] at h2; simpa using h2
      · have h7 : (tickG t.c.kind t.g).ticks = s.g.ticks + 1 := by
          rw [hr.g]; show _ + t.c.kind.reads = _; rw [hk]; rfl
        rw [expiredAt_timed hk, h7] at h3; simpa using h3

/-- A monitored cache with time to live 2, one tick per reading; 1 was inserted at time 0, 2 at time 1. The next
readings are 2, at which 1 is fresh, and 3, at which it has expired. -/
def demoLate : List (WOp Nat Nat) :=
  [.create (.timed 2 1) (.sized 3), .op 0 (.monitorNew []), .op 0 (.insert 1 10), .op 0 (.insert 2 20)]

theorem demoLate_reachable : Reachable calmO (demoState calmO demoLate 0) :=
  demoState_reachable (by decide +kernel) rfl

/-- C46 is false: a `lookup` can count a hit and then throw `KeyExpired`. -/
theorem C46_hit_registered_then_thrown :
    ¬ ∀ (O : Oracle Nat Nat) (s s' : St (Cache Nat Nat) Nat Nat) (k i : Nat) (e : Err),
      Calm O → Steady O → Reachable O s → s.c.obs.stats = some i → Throws O (.lookup k) s e s' →
      (s'.g.stats i).totalHits = (s.g.stats i).totalHits := by
  intro h
  obtain ⟨s', h1, h2⟩ := Out.throw_fact (o := Impl.step calmO (.lookup 1) (demoState calmO demoLate 0))
    (e := .keyExpired) (f := fun s' => (s'.g.stats 0).totalHits) (y := 1) (by decide +kernel) (by decide +kernel)
  have h3 := h calmO _ s' 1 0 _ calmO_calm calmO_steady demoLate_reachable (by decide +kernel) h1
  rw [h2] at h3
  revert h3
  decide +kernel

/-- C46 is false for `contains` followed by `lookup` of the same key, too: time passes in between. -/
example : ((Impl.step calmO (.contains 1) (demoState calmO demoLate 0)).result,
    (Impl.step calmO (.contains 1) (demoState calmO demoLate 0)).state.map fun s' =>
      (Impl.step calmO (.lookup 1) s').err) = (some (.bool true), some (some .keyExpired)) := by decide +kernel

/-- C07 is false for timed caches: a `lookup` that throws can move the entry to the most recent position. -/
theorem C07_throwing_lookup_can_reorder :
    ¬ ∀ (O : Oracle Nat Nat) (s s' : St (Cache Nat Nat) Nat Nat) (k : Nat) (e : Err),
      Calm O → Steady O → Reachable O s → Throws O (.lookup k) s e s' → SameCache s.c s'.c := by
  intro h
  obtain ⟨s', h1, h2⟩ := Out.throw_fact (o := Impl.step calmO (.lookup 1) (demoState calmO demoLate 0))
    (e := .keyExpired) (f := fun s' => keys s'.c) (y := [2, 1]) (by decide +kernel) (by decide +kernel)
  have h3 := (h calmO _ s' 1 _ calmO_calm calmO_steady demoLate_reachable h1).elements
  have h4 : keys s'.c = keys (demoState calmO demoLate 0).c := by unfold keys; rw [h3]
  rw [h2] at h4
  revert h4
  decide +kernel

/-! ### C47 -/

/-- C47 for `erase(key)` and `erase(unordered iterator)`: they remove an entry of a timed cache whether or not it has
expired. Missing: `erase(ordered iterator)`, which throws (`C47_ordered_erase_of_expired_throws`). -/
theorem C47_expired_entries_can_be_erased_partial (hO : NoListFault O) (h : Reachable O s) {x : MapNode K V}
    (hx : x ∈ elements s.c) :
    (∃ s', Returns O (.erase x.key) s (.bool true) s' ∧ elements s'.c = others s.c x.key ∧ OnlyEntries s s') ∧
    (∃ s', Returns O (.eraseU (some x.addr)) s .unit s' ∧ elements s'.c = others s.c x.key ∧ OnlyEntries s s') := by
  refine ⟨?_, C09_erase_unordered_iterator hO h hx⟩
  obtain ⟨b, s', h1, h2, h3, _, h4⟩ := C09_erase_key hO h x.key
  have : b = true := h2.2 ⟨x, hx, KeyEqual.refl _⟩
  subst this
  exact ⟨s', h1, h3, h4⟩

/-- `erase(ordered iterator)` on a timed cache: an expired entry is not erased, `KeyExpired` is thrown instead. -/
theorem C47_ordered_erase_of_expired_throws (hO : NoListFault O) (h : Reachable O s) (hk : s.c.kind = .timed ttl res)
    {q : Ptr} {x : MapNode K V} (hx : At s.c q x) :
    (elapsed O res x s.g.ticks > ttl →
      ∃ s', Throws O (.eraseO (some q)) s .keyExpired s' ∧ SameCache s.c s'.c) ∧
    (elapsed O res x s.g.ticks ≤ ttl →
      ∃ s', Returns O (.eraseO (some q)) s .unit s' ∧ elements s'.c = others s.c x.key) := by
  obtain ⟨t, hr, ht⟩ := h.rel hO
  obtain ⟨y, hy, rfl, rfl, hf⟩ := hr.ent_at ht hx
  have hk' : t.c.kind = .timed ttl res := by rw [← hr.rep.kind, hk]
  have h0 := eraseO_own (O := O) ht hy
  rw [expiredAt_timed hk', ← hr.g] at h0
  constructor
  · intro he
    rw [if_pos (by simpa using he)] at h0
    obtain ⟨s', h1, hr'⟩ := hr.back_throw (op := .eraseO (some y.slot)) hO (bind_throw h0)
    exact ⟨s', h1, hr.same hr' rfl rfl rfl rfl⟩
  · intro he
    rw [if_neg (by simpa using he)] at h0
    obtain ⟨s', h1, hr'⟩ := hr.back_ok (op := .eraseO (some y.slot)) hO (bind_ok h0)
    exact ⟨s', h1, by rw [hr'.elements, ← hr.without ht hf]; rfl⟩

/-- C47 is false: erasing an expired entry through an ordered iterator throws. -/
theorem C47_ordered_erase_refuted :
    ¬ ∀ (O : Oracle Nat Nat) (s : St (Cache Nat Nat) Nat Nat) (q : Ptr) (x : MapNode Nat Nat) (ttl : Int) (res : Nat),
      Calm O → Steady O → Reachable O s → s.c.kind = .timed ttl res → At s.c q x →
      ∃ s', Returns O (.eraseO (some q)) s .unit s' := by
  intro h
  have h1 : (Impl.step calmO (.eraseO (some 1)) (demoState calmO demoExpired 0)).result = none := by decide +kernel
  have hx : At (demoState calmO demoExpired 0).c 1 ⟨0, 1, ⟨10, some 1, 0⟩⟩ := by
    unfold At; decide +kernel
  obtain ⟨s', h2⟩ := h calmO _ 1 _ 2 1 calmO_calm calmO_steady demoExpired_reachable (by decide +kernel) hx
  rw [show Impl.step calmO (.eraseO (some 1)) (demoState calmO demoExpired 0) = _ from h2] at h1
  simp [Out.result] at h1

/-- The entry can be erased by key. -/
example : (Impl.step calmO (.erase 1) (demoState calmO demoExpired 0)).result = some (.bool true) ∧
    (Impl.step calmO (.eraseU (some 0)) (demoState calmO demoExpired 0)).result = some .unit := by decide +kernel

/-! ### C48 -/

/-- C48. Calls other than insertions, range assignment, erasure, clearing, resizing and `clear_expired` remove no
entry, whether they return or throw, and whether or not entries have expired: all entries stay, with address, key and
time stamp, and the size stays the same. -/
theorem C48_only_removing_calls_remove (hO : NoListFault O) (h : Reachable O s) (hop : op.mayRemove = false)
    (hd : Returns O op s r s' ∨ Throws O op s e s') :
    count s'.c = count s.c ∧ Returns O .size s' (.nat (count s.c)) s' ∧
    ((elements s'.c).map fun x => (x.addr, x.key, x.info.time)).Perm
      ((elements s.c).map fun x => (x.addr, x.key, x.info.time)) := by
  have key : ∃ t t', Rel s t ∧ Rel s' t' ∧ SameEnts t t' := by
    rcases hd with hd | hd
    · obtain ⟨t, t', hr, ht, hm, hr', _⟩ := h.returns hO hd
      have := step_sameEnts (O := O) op hop ht
      rw [hm] at this
      exact ⟨t, t', hr, hr', this⟩
    · obtain ⟨t, t', hr, ht, hm, hr', _⟩ := h.throws hO hd
      have := step_sameEnts (O := O) op hop ht
      rw [hm] at this
      exact ⟨t, t', hr, hr', this⟩
  obtain ⟨t, t', hr, hr', hp⟩ := key
  have hc : count s'.c = count s.c := by
    rw [hr.count, hr'.count]
    simpa using hp.length_eq
  refine ⟨hc, ?_, ?_⟩
  · show Out.ok (Res.nat s'.c.map.length) s' = _
    rw [hr'.map_length, ← hr'.count, hc]
  · rw [hr.elements, hr'.elements, List.map_map, List.map_map]
    have := List.Perm.map (fun p : Ptr × Ptr × K × Int => (p.1, p.2.2.1, p.2.2.2)) hp
    rw [List.map_map, List.map_map] at this
    exact this

/-- C48. An access to a key that has expired (at the first clock reading of the call) changes neither entries nor
order, whether it returns or throws. -/
theorem C48_access_to_expired_changes_nothing (hO : NoListFault O) (h : Reachable O s)
    (hk : s.c.kind = .timed ttl res) {x : MapNode K V} (hx : entryFor s.c k = some x)
    (he : elapsed O res x s.g.ticks > ttl) (ha : op.Accesses k)
    (hd : Returns O op s r s' ∨ Throws O op s e s') : SameCache s.c s'.c := by
  rcases hd with hd | hd
  · obtain ⟨t, t', hr, ht, ho, hr'⟩ := h.access hO ha hd
    obtain ⟨y, hy, rfl⟩ := hr.entryFor_some hx
    have hk' : t.c.kind = .timed ttl res := by rw [← hr.rep.kind, hk]
    have e1 : expiredAt O t.c.kind t.g y.time = true := by
      rw [expiredAt_timed hk', ← hr.g]; simpa using he
    cases ho with
    | hit e r j h2 h3 => rw [hy] at h2; injection h2 with h2; subst h2; rw [e1] at h3; cases h3
    | last => exact hr.same hr' rfl rfl rfl rfl
    | absent => exact hr.same hr' rfl rfl rfl rfl
    | expired => exact hr.same hr' rfl rfl rfl rfl
    | lastExpired => exact hr.same hr' rfl rfl rfl rfl
  · obtain ⟨t, t', hr, ht, ho, hr'⟩ := h.access_throw hO ha hd
    obtain ⟨y, hy, rfl⟩ := hr.entryFor_some hx
    have hk' : t.c.kind = .timed ttl res := by rw [← hr.rep.kind, hk]
    have e1 : expiredAt O t.c.kind t.g y.time = true := by
      rw [expiredAt_timed hk', ← hr.g]; simpa using he
    cases ho with
    | lateExpired e _ _ h2 h3 => rw [hy] at h2; injection h2 with h2; subst h2; rw [e1] at h3; cases h3
    | hitUser => exact hr.same hr' rfl rfl rfl rfl
    | missUser => exact hr.same hr' rfl rfl rfl rfl
    | expiredUser => exact hr.same hr' rfl rfl rfl rfl
    | notFound => exact hr.same hr' rfl rfl rfl rfl
    | expired => exact hr.same hr' rfl rfl rfl rfl
    | lastExpired => exact hr.same hr' rfl rfl rfl rfl

/-- Expired entries still count: one entry, expired, size 1; and they are evicted like others. -/
example : (Impl.step calmO .size (demoState calmO demoExpired 0)).result = some (.nat 1) ∧
    (Impl.step calmO (.hasExpired 1) (demoState calmO demoExpired 0)).result = some (.bool true) := by decide +kernel

end LRU
