import Verif.Proofs.HashFaultCalls
import Verif.Props.ListFault
/-!
# C70: hash functions and key comparisons that throw
-/

set_option linter.unusedSectionVars false
set_option autoImplicit false

namespace LRU

variable {K V : Type} [KeyEqual K] [DecidableEq K] {O O' : Oracle K V} {F : Faults} {t t' : FSt K V} {op : Op K V}
  {s s' : St (Cache K V) K V} {k : K} {v : V}

/-! ### What an interrupted call does -/

/-- C70. As long as neither function throws, the calls are those of the model. -/
theorem C70_same_calls (h1 : ∀ i, F.search i = false) (h2 : ∀ i, F.compare i = false) (op : Op K V) :
    (Impl.fstep O F op t).plain = Impl.step O op t.s := by
  rcases fstep_tracks (O := O) (F := F) (t := t) op with ⟨h, _⟩ | ⟨_, i, _, h | ⟨_, h⟩⟩ | ⟨_, i, _, _, _, _, h⟩
  · exact h
  · rw [h2] at h; cases h
  · rw [h1] at h; cases h
  · rw [h1] at h; cases h

/-- C70. An exception from the comparison with the last accessed key never reaches the caller: the call does what it would have
done, or the program is terminated. -/
theorem C70_comparison_terminates (h1 : ∀ i, F.search i = false) (op : Op K V) :
    (Impl.fstep O F op t).plain = Impl.step O op t.s ∨ Impl.fstep O F op t = .terminate := by
  rcases fstep_tracks (O := O) (F := F) (t := t) op with ⟨h, _⟩ | ⟨h, _⟩ | ⟨_, i, _, _, _, _, h⟩
  · exact .inl h
  · exact .inr h
  · rw [h1] at h; cases h

/-- C70. An exception of the user's functions always shows. If a call returns, none of the functions it called threw. If it
throws something else than a function threw, neither; and if it throws what a function threw, that was the last one it called.
If the program is terminated, the comparison with the last accessed key threw, or a search in one of the calls that ask in a
`noexcept` function whether an entry has expired (or the call terminates the program anyway). -/
theorem C70_failures_show (op : Op K V) :
    (∀ r, Impl.fstep O F op t = .ok r t' → F.Spared t.uses t'.uses) ∧
    (∀ e, Impl.fstep O F op t = .throw e t' → F.Spared t.uses t'.uses ∨
      e = .hash ∧ ∃ i, t'.uses = i + 1 ∧ F.Spared t.uses i ∧ F.search i = true) ∧
    (Impl.fstep O F op t = .terminate → Impl.step O op t.s = .terminate ∨
      ∃ i, F.Spared t.uses i ∧ (F.compare i = true ∨ op.asksExpiry = true ∧ F.search i = true)) := by
  rcases fstep_tracks (O := O) (F := F) (t := t) op with ⟨h, hu⟩ | ⟨h, hi⟩ | ⟨t1, i, h, _, h2, h3, h4⟩
  · refine ⟨fun r h1 => ?_, fun e h1 => .inl ?_, fun h1 => .inl ?_⟩
    · rw [h1] at hu; exact hu _ rfl
    · rw [h1] at hu; exact hu _ rfl
    · rw [h1] at h; exact h.symm
  · refine ⟨fun r h1 => ?_, fun e h1 => ?_, fun _ => .inr hi⟩ <;> (rw [h] at h1; cases h1)
  · refine ⟨fun r h1 => ?_, fun e h1 => ?_, fun h1 => ?_⟩ <;> (rw [h] at h1; cases h1)
    exact .inr ⟨rfl, i, h2, h3, h4⟩

/-- C70. The first thing that `find` does is to search, in every state; so do insertions into caches with room for any entry,
and, if there is no last accessed key, the other calls with a key. If that search throws, the caller gets the exception and
nothing has happened. `has_expired` terminates the program instead. -/
theorem C70_first_search_throws (hs : F.search t.uses = true) (k : K) (v : V) :
    Impl.fstep O F (.find k) t = .throw .hash ⟨t.s, t.uses + 1⟩ ∧
    Impl.fstep O F (.hasExpired k) t = .terminate ∧
    (∀ c, t.s.c.capacity = some (c + 1) → Impl.fstep O F (.insert k v) t = .throw .hash ⟨t.s, t.uses + 1⟩) ∧
    (t.s.c.last = none → ∀ op, op = .contains k ∨ op = .lookup k ∨ op = .erase k →
      Impl.fstep O F op t = .throw .hash ⟨t.s, t.uses + 1⟩) := by
  have h0 : ∀ k, Impl.mapFindF F k t = .throw .hash (⟨t.s, t.uses + 1⟩ : FSt K V) := by
    intro k
    refine bind_throw ?_
    unfold Impl.searchF
    rw [if_pos hs]
  have hf : Impl.findF O F k t = .throw .hash (⟨t.s, t.uses + 1⟩ : FSt K V) := by
    unfold Impl.findF
    rw [bind_ok (m := Impl.onF Impl.getObs) (s := t) rfl]
    exact bind_throw (h0 k)
  refine ⟨bind_throw hf, bind_terminate ?_, fun c hc => bind_throw ?_, ?_⟩
  · unfold Impl.hasExpiredF M.noexcept
    rw [bind_throw (h0 k)]
  · have h1 : Impl.onF Impl.readCapacity t = .ok (c + 1) t := by
      unfold Impl.onF Impl.readCapacity
      rw [hc]
    unfold Impl.insertF
    rw [bind_ok h1, if_neg (by omega)]
    exact bind_throw (h0 k)
  · intro hl op hop
    have h1 : Impl.lastIsF F k t = .ok false t := by
      unfold Impl.lastIsF
      rw [bind_ok (m := Impl.onF Impl.getLast) (s := t) rfl, hl]
      rfl
    rcases hop with rfl | rfl | rfl <;> refine bind_throw ?_
    · unfold Impl.containsF
      rw [bind_ok (m := Impl.onF Impl.getObs) (s := t) rfl, bind_ok h1, if_neg (by simp)]
      exact bind_throw hf
    · unfold Impl.lookupF
      rw [bind_ok (m := Impl.onF Impl.getObs) (s := t) rfl, bind_ok h1, if_neg (by simp)]
      exact bind_throw hf
    · unfold Impl.eraseF
      rw [bind_ok h1, if_neg (by simp)]
      exact bind_throw (h0 k)

/-- C70. If there is a last accessed key, `contains`, `lookup` and `erase` first compare their key with it, and an exception
of that comparison terminates the program, in every state. -/
theorem C70_first_comparison_terminates (hc : F.compare t.uses = true) (hl : t.s.c.last ≠ none) {k : K}
    (hop : op = .contains k ∨ op = .lookup k ∨ op = .erase k) : Impl.fstep O F op t = .terminate := by
  have h1 : Impl.lastIsF F k t = .terminate := by
    unfold Impl.lastIsF
    rw [bind_ok (m := Impl.onF Impl.getLast) (s := t) rfl]
    cases h : t.s.c.last with
    | none => exact absurd h hl
    | some p =>
      refine bind_terminate ?_
      unfold M.noexcept Impl.compareF
      rw [if_pos hc]
  rcases hop with rfl | rfl | rfl <;> refine bind_terminate ?_
  · unfold Impl.containsF
    rw [bind_ok (m := Impl.onF Impl.getObs) (s := t) rfl, bind_terminate h1]
  · unfold Impl.lookupF
    rw [bind_ok (m := Impl.onF Impl.getObs) (s := t) rfl, bind_terminate h1]
  · exact bind_terminate h1

/-- C70. If the comparison says that the key is another one, these calls search, and the caller gets the exception of that
search; nothing has happened. -/
theorem C70_second_use_throws {n : MapNode K V} {p : Ptr} (hc : F.compare t.uses = false)
    (hs : F.search (t.uses + 1) = true) (hl : t.s.c.last = some p)
    (hn : t.s.c.map.find? (fun n => n.addr == p) = some n) {k : K} (hk : keq k n.key = false)
    (hop : op = .contains k ∨ op = .lookup k ∨ op = .erase k) :
    Impl.fstep O F op t = .throw .hash ⟨t.s, t.uses + 2⟩ := by
  have h1 : Impl.lastIsF F k t = .ok false (⟨t.s, t.uses + 1⟩ : FSt K V) := by
    unfold Impl.lastIsF
    rw [bind_ok (m := Impl.onF Impl.getLast) (s := t) rfl, hl]
    have h2 : M.noexcept (Impl.compareF F) t = .ok () (⟨t.s, t.uses + 1⟩ : FSt K V) := by
      unfold M.noexcept Impl.compareF
      rw [if_neg (by rw [hc]; simp)]
    have h3 : Impl.onF (Impl.deref p) (⟨t.s, t.uses + 1⟩ : FSt K V) = .ok n ⟨t.s, t.uses + 1⟩ := by
      unfold Impl.onF Impl.deref
      rw [hn]
    show (M.noexcept (Impl.compareF F) >>= fun _ => _) t = _
    rw [bind_ok h2, bind_ok h3, hk]
    rfl
  have h0 : ∀ k, Impl.mapFindF F k (⟨t.s, t.uses + 1⟩ : FSt K V) = .throw .hash ⟨t.s, t.uses + 2⟩ := by
    intro k
    refine bind_throw ?_
    unfold Impl.searchF
    rw [if_pos hs]
  have hf : Impl.findF O F k (⟨t.s, t.uses + 1⟩ : FSt K V) = .throw .hash ⟨t.s, t.uses + 2⟩ := by
    unfold Impl.findF
    rw [bind_ok (m := Impl.onF Impl.getObs) (s := ⟨t.s, t.uses + 1⟩) rfl]
    exact bind_throw (h0 k)
  rcases hop with rfl | rfl | rfl <;> refine bind_throw ?_
  · unfold Impl.containsF
    rw [bind_ok (m := Impl.onF Impl.getObs) (s := t) rfl, bind_ok h1, if_neg (by simp)]
    exact bind_throw hf
  · unfold Impl.lookupF
    rw [bind_ok (m := Impl.onF Impl.getObs) (s := t) rfl, bind_ok h1, if_neg (by simp)]
    exact bind_throw hf
  · unfold Impl.eraseF
    rw [bind_ok h1, if_neg (by simp)]
    exact bind_throw (h0 k)

/-- C70. Calls that do not add or remove entries in several steps are exception safe, in every state: nothing has happened when
they throw. -/
theorem C70_interrupted_others_partial (h : op.gradual = false) : Interruptible O F op t (Untouched t.s) := by
  have hu := Untouched.refl t.s
  cases op
  case contains k => exact (containsF_tracks k hu).ret
  case find k => exact (findF_tracks k hu).ret
  case lookup k => exact (lookupF_tracks k hu).ret
  case eraseU p => exact (eraseUF_tracks p).ret
  case eraseO p => exact (eraseOF_tracks p fun _ h => h).ret.allow fun _ => rfl
  case allExpired => exact (allExpiredF_tracks hu).ret
  case hasExpired k => exact (hasExpiredF_tracks k).ret.allow fun _ => rfl
  case hasExpiredO p => exact (hasExpiredOF_tracks p).ret.allow fun _ => rfl
  case isValidO p => exact (isValidOF_tracks p).ret.allow fun _ => rfl
  case oKey p => exact (oKeyF_tracks p).ret.allow fun _ => rfl
  case oValue p => exact (oValueF_tracks _ fun _ h => h).ret.allow fun _ => rfl
  all_goals first
    | exact fstep_on rfl
    | cases h

variable [DecidableEq V]

/-- C70. An ordered iterator looks its key up before anything else. If that search throws, the program is terminated whenever
the question is whether the entry has expired: in `has_expired`, and in timed caches in `is_valid`, `key()`, `value()` and
`erase`. In plain caches `value()` and `erase` throw, and nothing has happened. -/
theorem C70_ordered_iterators (hO : NoListFault O) (h : Reachable O t.s) {l : ListNode} (hl : l ∈ t.s.c.order)
    (hs : F.search t.uses = true) :
    Impl.fstep O F (.hasExpiredO (some l.addr)) t = .terminate ∧
    (t.s.c.kind ≠ .basic → ∀ op, op = .isValidO (some l.addr) ∨ op = .oKey (some l.addr) ∨ op = .oValue (some l.addr) ∨
      op = .eraseO (some l.addr) → Impl.fstep O F op t = .terminate) ∧
    (t.s.c.kind = .basic → ∀ op, op = .oValue (some l.addr) ∨ op = .eraseO (some l.addr) →
      Impl.fstep O F op t = .throw .hash ⟨t.s, t.uses + 1⟩) := by
  obtain ⟨k, hk⟩ : ∃ k, Impl.onF (Impl.keyAt (some l.addr)) t = .ok k t := by
    obtain ⟨m, hr, ht⟩ := h.rel hO
    rw [hr.rep.order] at hl
    obtain ⟨e, he, rfl⟩ := List.mem_map.1 hl
    have h1 : Impl.keyAt (some e.slot) t.s = .ok e.key t.s := by
      unfold Impl.keyAt
      have h2 : Impl.derefOrder e.slot t.s = .ok e.lnode t.s := by
        unfold Impl.derefOrder
        rw [hr.rep.find_slot, ht.findSlot he]
        rfl
      refine (bind_ok h2).trans (bind_ok (a := e.node) ?_)
      show Impl.deref e.id t.s = _
      unfold Impl.deref
      rw [hr.rep.find_addr hr.awf, ht.findId he]
      rfl
    refine ⟨e.key, ?_⟩
    unfold Impl.onF
    rw [show e.lnode.addr = e.slot from rfl, h1]
  have h0 : ∀ k, Impl.mapFindF F k t = .throw .hash (⟨t.s, t.uses + 1⟩ : FSt K V) := by
    intro k
    refine bind_throw ?_
    unfold Impl.searchF
    rw [if_pos hs]
  have hlook : Impl.oLookupF F (some l.addr) t = .throw .hash (⟨t.s, t.uses + 1⟩ : FSt K V) := by
    unfold Impl.oLookupF
    rw [bind_ok hk]
    exact bind_throw (h0 k)
  have hex : Impl.hasExpiredOF O F (some l.addr) t = .terminate := by
    have h1 : ∀ (m : Impl.FM K V Bool) t', m t = .throw .hash t' → M.noexcept m t = .terminate := by
      intro m t' h
      unfold M.noexcept
      rw [h]
    exact h1 _ _ (bind_throw hlook)
  have hkind : Impl.onF Impl.getKind t = .ok t.s.c.kind t := rfl
  refine ⟨bind_terminate hex, fun hb op hop => ?_, fun hb op hop => ?_⟩
  · have hth : Impl.throwIfInvalidOF O F (some l.addr) t = .terminate := by
      refine (bind_ok hkind).trans ?_
      cases hkd : t.s.c.kind with
      | basic => exact absurd hkd hb
      | timed => exact bind_terminate hex
    rcases hop with rfl | rfl | rfl | rfl <;> refine bind_terminate ?_
    · refine (bind_ok hkind).trans ?_
      cases hkd : t.s.c.kind with
      | basic => exact absurd hkd hb
      | timed => exact bind_terminate hex
    · exact bind_terminate hth
    · exact bind_terminate (bind_terminate hth)
    · exact bind_terminate (bind_terminate hth)
  · have hth : Impl.throwIfInvalidOF O F (some l.addr) t = .ok () t := by
      refine (bind_ok hkind).trans ?_
      rw [hb]
      rfl
    rcases hop with rfl | rfl <;> refine bind_throw ?_
    · exact bind_throw ((bind_ok hth).trans (bind_throw hlook))
    · exact (bind_ok ((bind_ok hth).trans hk)).trans (bind_throw (h0 k))

/-- C70. An interrupted insertion has done nothing, or the cache was full and a map node for the new key has been added while
nothing has been evicted. -/
theorem C70_interrupted_insertion (hO : NoListFault O) (h : Reachable O t.s) (hi : op.Inserts k v) :
    Interruptible O F op t fun s' => Untouched t.s s' ∨ HalfInserted k v t.s s' := by
  rcases hi with rfl | rfl
  · exact (insertF_cut hO h k v).ret
  · exact (emplaceF_cut hO h k v).ret

/-- C70. An interrupted removal by key has done nothing, or the key was the last one accessed and only its list node is gone. -/
theorem C70_interrupted_erase (hO : NoListFault O) (h : Reachable O t.s) (k : K) :
    Interruptible O F (.erase k) t fun s' => s' = t.s ∨ HalfErased k t.s s' :=
  (eraseF_tracks (P := fun s' => s' = t.s ∨ HalfErased k t.s s') k (.inl rfl) fun _ _ _ h1 h2 h3 h4 =>
    .inr (halfErased hO h h1 h2 h3 h4)).ret

/-- C70. Interrupted calls that remove several entries leave a proper cache behind, in which some of the least recently used
entries are missing. -/
theorem C70_interrupted_trimming (hO : NoListFault O) (h : Reachable O t.s)
    (hop : (∃ n, op = .shrink n ∨ op = .setCapacity n) ∨ op = .clearExpired) :
    Interruptible O F op t fun s' => Reachable O s' ∧ Trimmed t.s s' := by
  have h0 : Reachable O t.s ∧ Trimmed t.s t.s := ⟨h, .refl _⟩
  have hstep : ∀ s s', Reachable O s ∧ Trimmed t.s s → Impl.eraseLru s = .ok () s' → Reachable O s' ∧ Trimmed t.s s' := by
    rintro s s' ⟨h1, h2⟩ h3
    obtain ⟨h4, h5⟩ := h1.eraseLru hO h3
    exact ⟨h4, h2.trans h5⟩
  rcases hop with ⟨n, rfl | rfl⟩ | rfl
  · exact (shrinkF_tracks n (P := fun s' => Reachable O s' ∧ Trimmed t.s s') h0 fun s s' h1 _ h2 => hstep s s' h1 h2).ret
  · exact (setCapacityF_tracks n (P := fun s' => Reachable O s' ∧ Trimmed t.s s') h0 fun s s' h1 _ h2 => hstep s s' h1 h2).ret
  · refine (clearExpiredF_tracks (P := fun s' => Reachable O s' ∧ Trimmed t.s s')
      (Q := fun s' => Reachable O s' ∧ Trimmed t.s s') h0 (fun _ h => h) ?_).ret
    rintro s s1 s2 l k n ⟨h1, h2⟩ hl hk hm he hd
    obtain ⟨n', rest, h3, h4, h5⟩ := h1.front hO hl hk hm
    cases h3
    have hu := hasExpiredInfo_untouched he
    have h6 := h1.readClock hO (by rw [h4]; exact List.mem_cons_self) he
    obtain ⟨h7, h8⟩ := h6.eraseFront hO (by rw [hu.1]; exact h4) (by rw [hu.1]; exact h5) hd
    exact ⟨h7, h2.trans (hu.trimmed.trans h8)⟩

/-- C70. An interrupted insertion of a range has inserted a prefix of it, and then stopped before or during the next
insertion. -/
theorem C70_interrupted_range (hO : NoListFault O) (h : Reachable O t.s) (l : List (K × V)) :
    Interruptible O F (.insertRange l) t (RangeCut O .insertRange l t.s) ∧
      Interruptible O F (.insertRangeMove l) t (RangeCut O .insertRangeMove l t.s) :=
  ⟨(insertRangeF_cut hO h l).ret, (insertRangeMoveF_cut hO h l).ret⟩

/-- C70. An interrupted assignment of a range has lost the old contents, and inserted a prefix of the range. -/
theorem C70_interrupted_assignment (hO : NoListFault O) (h : Reachable O t.s) (l : List (K × V)) :
    Interruptible O F (.assignRange l) t (fun s' => ∃ s0 s1, Returns O .clear t.s .unit s0 ∧
        (s1 = s0 ∨ Returns O (.setCapacity l.length) s0 .unit s1) ∧ RangeCut O .insertRange l s1 s') ∧
      Interruptible O F (.assignRangeMove l) t (fun s' => ∃ s0 s1, Returns O .clear t.s .unit s0 ∧
        (s1 = s0 ∨ Returns O (.setCapacity l.length) s0 .unit s1) ∧ RangeCut O .insertRangeMove l s1 s') := by
  have h1 : Tracks F (Op.asksExpiry (.assignRange l) = true) (fun s' => ∃ s0 s1, Returns O .clear t.s .unit s0 ∧
      (s1 = s0 ∨ Returns O (.setCapacity l.length) s0 .unit s1) ∧ RangeCut O .insertRange l s1 s')
      (Impl.assignRangeF O F l) (Impl.assignRange O l) t := assignRangeF_tracks l fun s u h1 => by
    obtain ⟨h2, s0, h3, h4⟩ := clearAndIncrease_calls hO h h1
    exact (insertRangeF_cut (t := ⟨s, u⟩) hO h2 l).mono fun s' h5 => ⟨s0, s, h3, h4, h5⟩
  have h2 : Tracks F (Op.asksExpiry (.assignRangeMove l) = true) (fun s' => ∃ s0 s1, Returns O .clear t.s .unit s0 ∧
      (s1 = s0 ∨ Returns O (.setCapacity l.length) s0 .unit s1) ∧ RangeCut O .insertRangeMove l s1 s')
      (Impl.assignRangeMoveF O F l) (Impl.assignRangeMove O l) t := assignRangeMoveF_tracks l fun s u h1 => by
    obtain ⟨h2, s0, h3, h4⟩ := clearAndIncrease_calls hO h h1
    exact (insertRangeMoveF_cut (t := ⟨s, u⟩) hO h2 l).mono fun s' h5 => ⟨s0, s, h3, h4, h5⟩
  exact ⟨h1.ret, h2.ret⟩

/-- C70. Whatever the call: what it leaves behind when it is interrupted is a proper cache, or a proper cache with one new map
node that has no list node, or a proper cache with one map node that has lost its list node. -/
theorem C70_interrupted_call_partial (hO : NoListFault O) (h : Reachable O t.s) (op : Op K V) :
    Interruptible O F op t fun s' => ∃ s1, Reachable O s1 ∧
      (Untouched s1 s' ∨ (∃ k v, HalfInserted k v s1 s') ∨ ∃ k, HalfErased k s1 s') := by
  have mono : ∀ {P Q : St (Cache K V) K V → Prop} {op}, Interruptible O F op t P → (∀ s, P s → Q s) →
      Interruptible O F op t Q := fun h1 h2 => Tracks.mono h1 h2
  have cut : ∀ {f : List (K × V) → Op K V} {l s s'}, Reachable O s → RangeCut O f l s s' → ∃ s1, Reachable O s1 ∧
      (Untouched s1 s' ∨ (∃ k v, HalfInserted k v s1 s') ∨ ∃ k, HalfErased k s1 s') := by
    rintro f l s s' hs ⟨l1, k, v, l2, m, s1, _, h1, h2⟩
    refine ⟨s1, hs.after hO h1, ?_⟩
    rcases h2 with h2 | h2
    · exact .inl h2
    · exact .inr (.inl ⟨k, v, h2⟩)
  have assigned : ∀ {f : List (K × V) → Op K V} {l s'}, (∃ s0 s1, Returns O .clear t.s .unit s0 ∧
        (s1 = s0 ∨ Returns O (.setCapacity l.length) s0 .unit s1) ∧ RangeCut O f l s1 s') → ∃ s1, Reachable O s1 ∧
      (Untouched s1 s' ∨ (∃ k v, HalfInserted k v s1 s') ∨ ∃ k, HalfErased k s1 s') := by
    rintro f l s' ⟨s0, s1, h1, h2, h3⟩
    have h4 := h.after hO h1
    refine cut ?_ h3
    rcases h2 with rfl | h2
    · exact h4
    · exact h4.after hO h2
  by_cases hg : op.gradual = false
  · exact mono (C70_interrupted_others_partial hg) fun s' h1 => ⟨t.s, h, .inl h1⟩
  · cases op <;> first | exact absurd rfl hg | skip
    case insert k v =>
      refine mono (C70_interrupted_insertion hO h (.inl rfl)) fun s' h1 => ⟨t.s, h, ?_⟩
      rcases h1 with h1 | h1
      · exact .inl h1
      · exact .inr (.inl ⟨k, v, h1⟩)
    case emplace k v =>
      refine mono (C70_interrupted_insertion hO h (.inr rfl)) fun s' h1 => ⟨t.s, h, ?_⟩
      rcases h1 with h1 | h1
      · exact .inl h1
      · exact .inr (.inl ⟨k, v, h1⟩)
    case insertRange l => exact mono (C70_interrupted_range hO h l).1 fun s' h1 => cut h h1
    case insertRangeMove l => exact mono (C70_interrupted_range hO h l).2 fun s' h1 => cut h h1
    case assignRange l => exact mono (C70_interrupted_assignment hO h l).1 fun s' h1 => assigned h1
    case assignRangeMove l => exact mono (C70_interrupted_assignment hO h l).2 fun s' h1 => assigned h1
    case erase k =>
      refine mono (C70_interrupted_erase hO h k) fun s' h1 => ⟨t.s, h, ?_⟩
      rcases h1 with rfl | h1
      · exact .inl (.refl _)
      · exact .inr (.inr ⟨k, h1⟩)
    case shrink n =>
      exact mono (C70_interrupted_trimming hO h (.inl ⟨n, .inl rfl⟩)) fun s' h1 => ⟨s', h1.1, .inl (.refl _)⟩
    case setCapacity n =>
      exact mono (C70_interrupted_trimming hO h (.inl ⟨n, .inr rfl⟩)) fun s' h1 => ⟨s', h1.1, .inl (.refl _)⟩
    case clearExpired =>
      exact mono (C70_interrupted_trimming hO h (.inr rfl)) fun s' h1 => ⟨s', h1.1, .inl (.refl _)⟩

/-! ### What goes wrong afterwards -/

/-- C70. After an interrupted insertion iteration visits what it visited before, but the cache counts one entry more than its
capacity, and the free space it reports has wrapped around. -/
theorem C70_half_inserted (hO : NoListFault O') (h : Reachable O' s) (hi : HalfInserted k v s s') :
    ∃ c, s'.c.capacity = some c ∧ elements s'.c = elements s.c ∧ Returns O .size s' (.nat (c + 1)) s' ∧
      Returns O .spaceLeft s' (.optNat none) s' ∧ Returns O .isFull s' (.bool false) s' := by
  obtain ⟨n, c, h1, h2, h3, h4, h5, h6⟩ := hi
  have h7 : s'.c.map.length = c + 1 := by rw [h1.length hO h, h5]
  have h8 : s'.c.capacity = some c := h1.capacity.trans h4
  refine ⟨c, h8, h1.elements hO h h2, ?_, ?_, ?_⟩
  · show Out.ok (Res.nat s'.c.map.length) s' = _
    rw [h7]
  all_goals
    have h9 : Impl.readCapacity s' = .ok c s' := by
      unfold Impl.readCapacity
      rw [h8]
  · refine bind_ok (a := none) ?_
    unfold Impl.spaceLeft
    rw [bind_ok h9, bind_ok (m := Impl.size) (s := s') rfl, h7, if_neg (by omega)]
    rfl
  · refine bind_ok (a := false) ?_
    unfold Impl.isFull
    rw [bind_ok (m := Impl.size) (s := s') rfl, bind_ok h9, h7]
    show Out.ok (c + 1 == c) s' = _
    simp

/-- C70. … and accessing (in a plain cache), erasing, or inserting the key again is undefined behaviour. -/
theorem C70_half_inserted_undefined (hO : NoListFault O') (h : Reachable O' s) (hi : HalfInserted k v s s') :
    Impl.step O (.erase k) s' = .ub ∧
    (∀ op, s.c.kind = .basic → NoCallbackFault O → op.Accesses k → Impl.step O op s' = .ub) ∧
    (∀ op v2, Calm O → op.Inserts k v2 → Impl.step O op s' = .ub) := by
  obtain ⟨n, c, h1, h2, h3, h4, h5, h6⟩ := hi
  exact ⟨C23_erase_after_refused_list_node hO h h1 h2 h3,
    fun op hb hcb ha => C23_access_after_refused_list_node hO h h1 h2 h3 hb (by omega) hcb ha,
    fun op v2 hc hi => C23_retry_after_refused_list_node hO h h1 h3 (by omega) ⟨c, h4, h6⟩ hc hi⟩

/-- C70. After an interrupted removal iteration visits the entries under other keys, but the cache counts one entry more. -/
theorem C70_half_erased (hO : NoListFault O') (h : Reachable O' s) (hi : HalfErased k s s') :
    elements s'.c = others s.c k ∧ Returns O .size s' (.nat (count s'.c + 1)) s' := by
  obtain ⟨n, h1, h2, h3, h4⟩ := hi
  have h5 : others s.c n.key = others s.c k := by
    unfold others
    refine List.filter_congr fun x _ => ?_
    congr 1
    cases h6 : keq x.key n.key with
    | true => exact (joined h6 (flipped h2)).symm
    | false =>
      cases h7 : keq x.key k with
      | false => rfl
      | true => rw [joined h7 h2] at h6; cases h6
  refine ⟨by rw [h1.elements hO h, h5], ?_⟩
  show Out.ok (Res.nat s'.c.map.length) s' = _
  rw [h1.length hO h, h1.count hO h]

/-- C70. … and erasing the key again, which is what a program would do, is undefined behaviour; so are, if the cache holds any
other entry, accessing it (in a plain cache) and inserting it. -/
theorem C70_half_erased_undefined (hO : NoListFault O') (h : Reachable O' s) (hi : HalfErased k s s') :
    Impl.step O (.erase k) s' = .ub ∧
    (∀ op, s.c.kind = .basic → count s.c ≠ 1 → NoCallbackFault O → op.Accesses k → Impl.step O op s' = .ub) ∧
    (∀ op v2, count s.c ≠ 1 → Calm O → op.Inserts k v2 → Impl.step O op s' = .ub) := by
  obtain ⟨n, h1, h2, h3, h4⟩ := hi
  have hfind : ∀ g, Impl.mapFind k ⟨s'.c, g⟩ = .ok (some n) ⟨s'.c, g⟩ := by
    intro g
    unfold Impl.mapFind
    rw [h1.find_key hO h h2]
  have hmove : ∀ v2 g, count s.c ≠ 1 → Impl.moveToFrontAssign O n v2 ⟨s'.c, g⟩ = .ub := by
    intro v2 g hc
    unfold Impl.moveToFrontAssign
    rw [bind_ub (h1.moveToFront hO h hc)]
  refine ⟨?_, ?_, ?_⟩
  · refine bind_ub ?_
    unfold Impl.erase
    rw [bind_ok (h1.lastIs k), if_neg (by simp), bind_ok (hfind s'.g)]
    refine bind_ub ?_
    unfold Impl.eraseIt
    have h5 : Impl.derefIt (some n.addr) s' = .ok n s' := by
      show (match s'.c.map.find? (fun x => x.addr == n.addr) with | some m => Out.ok m s' | none => Out.ub) = _
      rw [h1.find_addr hO h]
    have h6 : Impl.invalidateIf n.key s' = .ok () s' := by
      unfold Impl.invalidateIf
      rw [bind_ok (h1.lastIs _)]
      rfl
    obtain ⟨q, h7, h8⟩ := h1.gone hO h
    rw [bind_ok h5, bind_ok h6, h7]
    refine bind_ub (bind_ub ?_)
    unfold Impl.derefOrder
    rw [h8]
  · intro op hb hc hcb ha
    have hf : Impl.find O k s' = .ub := by
      unfold Impl.find
      rw [bind_ok (m := Impl.getObs) (s := s') rfl, bind_ok (hfind s'.g)]
      have h5 : Impl.hasExpiredInfo O n.info.time s' = .ok false s' := by
        unfold Impl.hasExpiredInfo
        rw [bind_ok (m := Impl.getKind) (s := s') rfl, h1.kind, hb]
        rfl
      dsimp only
      rw [bind_ok h5, if_neg (by simp)]
      rcases registerHit_cases (O := O) s'.c.obs k n.info.value s' with ⟨h6, _⟩ | ⟨i, cb, _, h7, _⟩
      · rw [bind_ok h6, bind_ub (h1.moveToFront hO h hc)]
      · rw [hcb] at h7
        cases h7
    rcases ha with rfl | rfl | rfl
    · refine bind_ub ?_
      unfold Impl.contains
      rw [bind_ok (m := Impl.getObs) (s := s') rfl, bind_ok (h1.lastIs k), if_neg (by simp), bind_ub hf]
    · exact bind_ub hf
    · refine bind_ub ?_
      unfold Impl.lookup
      rw [bind_ok (m := Impl.getObs) (s := s') rfl, bind_ok (h1.lastIs k), if_neg (by simp), bind_ub hf]
  · intro op v2 hc hcalm hi
    obtain ⟨c, h5, h6⟩ : ∃ c, s'.c.capacity = some c ∧ c ≠ 0 := by
      obtain ⟨t, e, hr, ht, he, _, _⟩ := h1.ent hO h
      rw [h1.capacity, hr.rep.cap]
      have h7 := List.length_pos_of_mem he
      cases h8 : t.c.cap with
      | none => rw [ht.awf.capNone h8] at he; cases he
      | some c =>
        have := ht.awf.bound c h8
        exact ⟨c, rfl, by omega⟩
    have h7 : Impl.readCapacity s' = .ok c s' := by
      unfold Impl.readCapacity
      rw [h5]
    have h8 : ∀ g, attempt O .construct (⟨s'.c, g⟩ : St (Cache K V) K V) = .ok () ⟨s'.c, { g with steps := g.steps + 1 }⟩ := by
      intro g
      unfold attempt
      simp [hcalm _ g.steps]
    rcases hi with rfl | rfl
    · refine bind_ub ?_
      unfold Impl.insert
      rw [bind_ok h7, if_neg h6, bind_ok (hfind s'.g)]
      exact bind_ub (hmove _ _ hc)
    · refine bind_ub ?_
      unfold Impl.emplace
      rw [bind_ok h7, if_neg h6, bind_ok (h8 s'.g), bind_ok (hfind _)]
      dsimp only
      rw [bind_ok (h8 _), bind_ub (hmove _ _ hc)]

/-- C70. `clear()` repairs the cache in both cases: it leaves what it leaves of the cache before the call. -/
theorem C70_clear_repairs (hi : HalfInserted k v s s' ∨ HalfErased k s s') :
    ∃ d, Returns O .clear s .unit ⟨d, s.g⟩ ∧ Returns O .clear s' .unit ⟨d, s'.g⟩ := by
  refine ⟨{ s.c with map := [], order := [], last := none }, rfl, ?_⟩
  show Out.ok Res.unit _ = _
  rcases hi with ⟨n, c, h1, _⟩ | ⟨n, h1, _⟩
  · simp only [h1.capacity, h1.kind, h1.obs]
  · simp only [h1.capacity, h1.kind, h1.obs]

/-! ### Examples -/

/-- The search (or comparison) number `n` fails. -/
def failAt (search compare : Option Nat) : Faults := ⟨fun i => search == some i, fun i => compare == some i⟩

/-- The full cache 2, 3, 1 of capacity 3, in which 1 was accessed last. -/
def fdemo : FSt Nat Nat := ⟨demoState calmO demo3 0, 0⟩

theorem fdemo_reachable : Reachable calmO fdemo.s := by
  have h := demo3_reachable
  unfold fdemo
  generalize demoState calmO demo3 0 = s at *
  exact h

/-- C70 fails for insertion: when the search for the entry to evict throws, the new key is in the map already. -/
theorem C70_insert_not_safe : ¬ ∀ (O : Oracle Nat Nat) (F : Faults) (t t' : FSt Nat Nat) (k v : Nat), Calm O → Reachable O t.s →
    Impl.fstep O F (.insert k v) t = .throw .hash t' → Untouched t.s t'.s := by
  intro hall
  obtain ⟨t', h1, h2⟩ := Out.throw_fact (o := Impl.fstep calmO (failAt (some 2) none) (.insert 4 40) fdemo) (e := .hash)
    (f := fun t' => t'.s.c.map.length) (y := 4) (by decide +kernel) (by decide +kernel)
  have h0 : fdemo.s.c.map.length = 3 := by decide +kernel
  have hre := fdemo_reachable
  generalize fdemo = t at *
  have h3 := hall _ _ _ _ _ _ calmO_calm hre h1
  rw [h3.1, h0] at h2
  cases h2

/-- C70 fails for removal: when `_map.erase(key)` throws, the list node of the key is gone already. -/
theorem C70_erase_not_safe : ¬ ∀ (O : Oracle Nat Nat) (F : Faults) (t t' : FSt Nat Nat) (k : Nat), Calm O → Reachable O t.s →
    Impl.fstep O F (.erase k) t = .throw .hash t' → Untouched t.s t'.s := by
  intro hall
  obtain ⟨t', h1, h2⟩ := Out.throw_fact (o := Impl.fstep calmO (failAt (some 2) none) (.erase 1) fdemo) (e := .hash)
    (f := fun t' => t'.s.c.order.length) (y := 2) (by decide +kernel) (by decide +kernel)
  have h0 : fdemo.s.c.order.length = 3 := by decide +kernel
  have hre := fdemo_reachable
  generalize fdemo = t at *
  have h3 := hall _ _ _ _ _ calmO_calm hre h1
  rw [h3.1, h0] at h2
  cases h2

/-- C70 fails, too, in that exceptions do not always reach the caller. `contains` compares the key with the last accessed one,
and `has_expired` searches, in functions that are `noexcept`. -/
theorem C70_exceptions_terminate :
    Impl.fstep calmO (failAt none (some 0)) (.contains 3) fdemo = .terminate ∧
    Impl.fstep calmO (failAt (some 0) none) (.hasExpired 3) fdemo = .terminate ∧
    ∃ t', Impl.fstep calmO (failAt (some 0) none) (.find 3) fdemo = .throw .hash t' := by
  have ends : ∀ {σ α : Type} {o : Out σ α}, o.isTerminate = true → o = .terminate := by
    intro σ α o h
    cases o <;> first | rfl | cases h
  refine ⟨ends (by decide +kernel), ends (by decide +kernel), ?_⟩
  obtain ⟨t', h1, _⟩ := Out.throw_fact (o := Impl.fstep calmO (failAt (some 0) none) (.find 3) fdemo) (e := .hash)
    (f := fun _ => ()) (y := ()) (by decide +kernel) (by decide +kernel)
  exact ⟨t', h1⟩

/-- The two half-finished calls, to which the theorems above apply. -/
theorem C70_demo : ∃ s1 s2 : St (Cache Nat Nat) Nat Nat, HalfInserted 4 40 fdemo.s s1 ∧ HalfErased 1 fdemo.s s2 ∧
    Reachable calmO fdemo.s ∧ fdemo.s.c.kind = .basic ∧ count fdemo.s.c = 3 := by
  have hre : Reachable calmO fdemo.s := fdemo_reachable
  have hO : NoListFault calmO := fun _ => rfl
  obtain ⟨t1, h1, h2⟩ := Out.throw_fact (o := Impl.fstep calmO (failAt (some 2) none) (.insert 4 40) fdemo) (e := .hash)
    (f := fun t' => (t'.s.c.map.length == fdemo.s.c.map.length)) (y := false) (by decide +kernel) (by decide +kernel)
  obtain ⟨t2, h3, h4⟩ := Out.throw_fact (o := Impl.fstep calmO (failAt (some 2) none) (.erase 1) fdemo) (e := .hash)
    (f := fun t' => (t'.s.c.order.length == fdemo.s.c.order.length)) (y := false) (by decide +kernel) (by decide +kernel)
  have h5 : (Impl.step calmO (.insert 4 40) fdemo.s).err = none := by decide +kernel
  have h6 : (Impl.step calmO (.erase 1) fdemo.s).err = none := by decide +kernel
  have h7 : fdemo.s.c.kind = .basic ∧ count fdemo.s.c = 3 := by decide +kernel
  generalize fdemo = t at *
  refine ⟨t1.s, t2.s, ?_, ?_, hre, h7⟩
  · rcases C70_interrupted_insertion (F := failAt (some 2) none) hO hre (.inl rfl : Op.Inserts (.insert 4 40) 4 40) with
      ⟨h, _⟩ | ⟨h, _⟩ | ⟨t', _, h, h8, _⟩
    · rw [h1] at h
      rw [← h] at h5
      cases h5
    · rw [h1] at h; cases h
    · rw [h1] at h
      cases h
      rcases h8 with h8 | h8
      · rw [h8.1] at h2
        simp at h2
      · exact h8
  · rcases C70_interrupted_erase (F := failAt (some 2) none) hO hre 1 with ⟨h, _⟩ | ⟨h, _⟩ | ⟨t', _, h, h8, _⟩
    · rw [h3] at h
      rw [← h] at h6
      cases h6
    · rw [h3] at h; cases h
    · rw [h3] at h
      cases h
      rcases h8 with h8 | h8
      · rw [h8] at h4
        simp at h4
      · exact h8

/-- The demo has a last accessed key, 1, and a stored key that is another one: the hypotheses of `C70_second_use_throws`. -/
example : (∃ p n, fdemo.s.c.last = some p ∧ fdemo.s.c.map.find? (fun n => n.addr == p) = some n ∧ keq 3 n.key = false) ∧
    (failAt (some 1) none).compare fdemo.uses = false ∧ (failAt (some 1) none).search (fdemo.uses + 1) = true ∧
    (failAt (some 0) (some 0)).search fdemo.uses = true ∧ (failAt (some 0) (some 0)).compare fdemo.uses = true ∧
    fdemo.s.c.capacity = some 3 := by
  refine ⟨?_, by decide +kernel, by decide +kernel, by decide +kernel, by decide +kernel, by decide +kernel⟩
  have h : (fdemo.s.c.last.bind fun p => (fdemo.s.c.map.find? fun n => n.addr == p).map fun n => keq 3 n.key) = some false := by
    decide +kernel
  generalize fdemo = t at *
  cases h1 : t.s.c.last with
  | none => rw [h1] at h; cases h
  | some p =>
    rw [h1, Option.bind_some] at h
    cases h2 : t.s.c.map.find? fun n => n.addr == p with
    | none => rw [h2] at h; cases h
    | some n =>
      rw [h2] at h
      injection h with h
      exact ⟨p, n, rfl, h2, h⟩

/-- The demo has positions for `C70_ordered_iterators`. -/
example : fdemo.s.c.order.length = 3 ∧ fdemo.s.c.kind = .basic := by decide +kernel

/-- Removing several entries, interrupted: `shrink(1)` has removed 2 when the second search throws. -/
example : ((Impl.fstep calmO (failAt (some 2) none) (.shrink 1) fdemo).state.map fun t' => keys t'.s.c) = some [3, 1] ∧
    (Impl.fstep calmO (failAt (some 2) none) (.shrink 1) fdemo).err = some .hash := by decide +kernel

/-- A range, interrupted: 7 has been inserted, and 8 has not. -/
example : ((Impl.fstep calmO (failAt (some 3) none) (.insertRange [(7, 70), (8, 80)]) fdemo).state.map fun t' => keys t'.s.c) =
      some [3, 1, 7] ∧
    (Impl.fstep calmO (failAt (some 3) none) (.insertRange [(7, 70), (8, 80)]) fdemo).err = some .hash := by decide +kernel

end LRU
