import Verif.Props.Lookup
import Verif.Proofs.Walk
/-!
# Iterators and references: C34–C38, C56, C58, C59
-/

set_option linter.unusedSectionVars false
set_option autoImplicit false

namespace LRU

variable {K V : Type} [KeyEqual K] [DecidableEq K] [DecidableEq V] {O : Oracle K V}
  {s s' : St (Cache K V) K V} {op : Op K V} {r : Res K V} {k : K} {v : V} {e : Err} {q : Ptr} {x y : MapNode K V}

/-! ### C35 -/

/-- The positions `position c 0`, `position c 1`, … denote the entries in recency order; those from `size()` on are
past the end. -/
theorem C35_positions_denote_entries (hO : NoListFault O) (h : Reachable O s) (i : Nat) :
    (∀ x, (elements s.c)[i]? = some x → ∃ q, position s.c i = some q ∧ At s.c q x) ∧
    (count s.c ≤ i → position s.c i = none) := by
  obtain ⟨t, hr, ht⟩ := h.rel hO
  constructor
  · intro x hx
    rw [hr.elements_get] at hx
    obtain ⟨e, h1, rfl⟩ := Option.map_eq_some_iff.1 hx
    refine ⟨e.slot, by rw [hr.position_eq, h1]; rfl, ?_⟩
    exact (hr.at_iff ht).2 ⟨e, List.mem_of_getElem? h1, rfl, rfl⟩
  · intro hi
    unfold position
    rw [List.getElem?_eq_none (by rw [hr.count_order]; exact hi)]
    rfl

/-- Every valid ordered iterator is one of these positions, and positions are distinct. -/
theorem C35_positions_are_all (hO : NoListFault O) (h : Reachable O s) (hq : At s.c q x) :
    ∃ i, i < count s.c ∧ position s.c i = some q ∧ (elements s.c)[i]? = some x ∧
      ∀ j, position s.c j = some q → j = i := by
  obtain ⟨t, hr, ht⟩ := h.rel hO
  obtain ⟨e, he, rfl, rfl⟩ := (hr.at_iff ht).1 hq
  obtain ⟨i, hi, rfl⟩ := List.mem_iff_getElem.1 he
  refine ⟨i, ?_, ?_, ?_, ?_⟩
  · unfold count
    rw [hr.elements, List.length_map]
    exact hi
  · rw [hr.position_eq, List.getElem?_eq_getElem hi]; rfl
  · rw [hr.elements_get, List.getElem?_eq_getElem hi]; rfl
  · intro j hj
    rw [hr.position_eq] at hj
    have hnd := hr.awf.slots
    obtain ⟨f, h1, h2⟩ := Option.map_eq_some_iff.1 hj
    obtain ⟨hj', rfl⟩ := List.getElem?_eq_some_iff.1 h1
    refine nodup_index hnd ?_ ?_ (a := t.c.ents[i].slot)
    · rw [List.getElem?_map, List.getElem?_eq_getElem hj', Option.map_some, h2]
    · rw [List.getElem?_map, List.getElem?_eq_getElem hi, Option.map_some]

/-- C35: `ordered_begin()` is the first position, `++` moves to the next one up to `ordered_end()`, and `--` is its
inverse, including from `ordered_end()`. None of this changes anything. -/
theorem C35_increment_and_decrement (hO : NoListFault O) (h : Reachable O s) :
    Returns O .oBegin s (.pos (position s.c 0)) s ∧
    ∀ i, i < count s.c →
      Returns O (.oNext (position s.c i)) s (.pos (position s.c (i + 1))) s ∧
      Returns O (.oPrev (position s.c (i + 1))) s (.pos (position s.c i)) s := by
  obtain ⟨t, hr, ht⟩ := h.rel hO
  refine ⟨oBegin_returns O s, fun i hi => ?_⟩
  rw [← hr.count_order] at hi
  refine ⟨?_, oPrev_returns hr.order_nodup hi⟩
  obtain ⟨p, hp⟩ : ∃ p, position s.c i = some p := by
    unfold position
    rw [List.getElem?_eq_getElem hi]
    exact ⟨_, rfl⟩
  rw [hp]
  exact oNext_returns hr.order_nodup hp

theorem walk_next (hO : NoListFault O) (h : Reachable O s) (n i : Nat) (hi : i + n ≤ count s.c) :
    Walk O .oNext s n (position s.c i) (position s.c (i + n)) := by
  induction n generalizing i with
  | zero => exact .done
  | succ n ih =>
    refine .move ((C35_increment_and_decrement hO h).2 i (by omega)).1 ?_
    have := ih (i + 1) (by omega)
    rwa [Nat.add_right_comm, Nat.add_assoc] at this

theorem walk_prev (hO : NoListFault O) (h : Reachable O s) (n i : Nat) (hi : i + n ≤ count s.c) :
    Walk O .oPrev s n (position s.c (i + n)) (position s.c i) := by
  induction n with
  | zero => exact .done
  | succ n ih =>
    exact .move ((C35_increment_and_decrement hO h).2 (i + n) (by omega)).2 (ih (by omega))

/-- C35: `size()` increments lead from `ordered_begin()` to `ordered_end()`, and `size()` decrements back; after `n`
increments (decrements from the end) the iterator denotes the entry of rank `n` (of rank `n` from the other end). -/
theorem C35_walk (hO : NoListFault O) (h : Reachable O s) :
    Walk O .oNext s (count s.c) (position s.c 0) none ∧
    Walk O .oPrev s (count s.c) none (position s.c 0) ∧
    (∀ n, n < count s.c → ∃ q x, Walk O .oNext s n (position s.c 0) (some q) ∧ At s.c q x ∧
      (elements s.c)[n]? = some x) ∧
    (∀ n, n < count s.c → ∃ q x, Walk O .oPrev s (n + 1) none (some q) ∧ At s.c q x ∧
      (elements s.c).reverse[n]? = some x) := by
  have hend : position s.c (count s.c) = none := (C35_positions_denote_entries hO h _).2 (Nat.le_refl _)
  have hget : ∀ i, i < count s.c → ∃ q x, position s.c i = some q ∧ At s.c q x ∧ (elements s.c)[i]? = some x := by
    intro i hi
    have hx : (elements s.c)[i]? = some _ := List.getElem?_eq_getElem hi
    obtain ⟨q, h1, h2⟩ := (C35_positions_denote_entries hO h i).1 _ hx
    exact ⟨q, _, h1, h2, hx⟩
  refine ⟨?_, ?_, fun n hn => ?_, fun n hn => ?_⟩
  · have := walk_next hO h (count s.c) 0 (by omega)
    rwa [Nat.zero_add, hend] at this
  · have := walk_prev hO h (count s.c) 0 (by omega)
    rwa [Nat.zero_add, hend] at this
  · obtain ⟨q, x, h1, h2, h3⟩ := hget n hn
    refine ⟨q, x, ?_, h2, h3⟩
    have := walk_next hO h n 0 (by omega)
    rwa [Nat.zero_add, h1] at this
  · obtain ⟨q, x, h1, h2, h3⟩ := hget (count s.c - (n + 1)) (by omega)
    refine ⟨q, x, ?_, h2, ?_⟩
    · have := walk_prev hO h (n + 1) (count s.c - (n + 1)) (by omega)
      rwa [Nat.sub_add_cancel (by omega), hend, h1] at this
    · rw [List.getElem?_reverse hn, ← h3]
      unfold count
      congr 1
      omega

/-- C35: wherever `++` and `--` are defined at all they undo each other. -/
theorem C35_inverse (hO : NoListFault O) (h : Reachable O s) {p p' : Option Ptr} :
    Returns O (.oNext p) s (.pos p') s' ↔ Returns O (.oPrev p') s (.pos p) s' ∧ s' = s := by
  obtain ⟨t, hr, ht⟩ := h.rel hO
  have rank : ∀ p, (∃ i, i ≤ count s.c ∧ position s.c i = p) ∨ (∃ q, p = some q ∧ q ∉ s.c.order.map (·.addr)) := by
    intro p
    cases p with
    | none => exact .inl ⟨count s.c, Nat.le_refl _, (C35_positions_denote_entries hO h _).2 (Nat.le_refl _)⟩
    | some q =>
      by_cases hq : q ∈ s.c.order.map (·.addr)
      · obtain ⟨i, hi⟩ := List.mem_iff_getElem?.1 hq
        rw [addrs_index] at hi
        refine .inl ⟨i, ?_, hi⟩
        rcases Nat.lt_or_ge (count s.c) i with hlt | hge
        · rw [(C35_positions_denote_entries hO h i).2 (by omega)] at hi; cases hi
        · exact hge
      · exact .inr ⟨q, rfl, hq⟩
  constructor
  · intro hd
    rcases rank p with ⟨i, hi, rfl⟩ | ⟨q, rfl, hq⟩
    · rcases Nat.lt_or_ge i (count s.c) with hlt | hge
      · obtain ⟨h1, h2⟩ := (C35_increment_and_decrement hO h).2 i hlt
        have h3 := h1.symm.trans hd
        injection h3 with h3 h4
        injection h3 with h3
        subst h3 h4
        exact ⟨h2, rfl⟩
      · rw [(C35_positions_denote_entries hO h i).2 hge] at hd
        exact absurd ((oNext_end O s).symm.trans hd) (by simp)
    · exfalso
      obtain ⟨it, h1, _⟩ := ret_ok_inv hd
      unfold Impl.oNext at h1
      rw [bind_ok (m := Impl.orderAddrs) (s := s) rfl] at h1
      simp only [after_not hq] at h1
      cases h1
  · rintro ⟨hd, rfl⟩
    rcases rank p' with ⟨i, hi, rfl⟩ | ⟨q, rfl, hq⟩
    · cases i with
      | zero => exact absurd ((oPrev_first hr.order_nodup).symm.trans hd) (by simp)
      | succ i =>
        obtain ⟨h1, h2⟩ := (C35_increment_and_decrement hO h).2 i (by omega)
        have h3 := h2.symm.trans hd
        injection h3 with h3 h4
        injection h3 with h3
        subst h3
        exact h1
    · exfalso
      obtain ⟨it, h1, _⟩ := ret_ok_inv hd
      unfold Impl.oPrev at h1
      rw [bind_ok (m := Impl.orderAddrs) (s := s') rfl] at h1
      have hq' : q ∉ (s'.c.order.map (·.addr)).reverse := fun h => hq (List.mem_reverse.1 h)
      simp only [after_not hq'] at h1
      cases h1

/-- The walk over the three entries of a cache, and reading the keys on the way. -/
example : let s := demoState calmO demo3 0
    count s.c = 3 ∧ (∃ q, position s.c 1 = some q ∧ (Impl.step calmO (.oKey (some q)) s).result = some (.key 3)) ∧
    position s.c 3 = none := by
  refine ⟨by decide +kernel, ⟨(position (demoState calmO demo3 0).c 1).getD 0, by decide +kernel, by decide +kernel⟩,
    by decide +kernel⟩

/-- Unordered iteration visits every node of `_map` once: from `unordered_begin()` each increment leads to the next
node, and the last one to `unordered_end()`. (`_map` holds the same entries as `_order`:
`C02_no_duplicates_same_entries`.) -/
theorem C35_unordered_walk (hO : NoListFault O) (h : Reachable O s) :
    (∃ it, Impl.uBegin s = .ok it s ∧ it.pos = (s.c.map[0]?).map (·.addr)) ∧
    ∀ i n, s.c.map[i]? = some n →
      ∃ it, Impl.uNext { pos := some n.addr } s = .ok it s ∧ it.pos = (s.c.map[i + 1]?).map (·.addr) := by
  obtain ⟨t, hr, ht⟩ := h.rel hO
  have hnd : (s.c.map.map (·.addr)).Nodup := by
    have h1 : (s.c.map.map (·.addr)).Perm (t.c.ents.map (·.id)) := by
      refine (hr.rep.map.map _).trans (List.Perm.of_eq ?_)
      rw [List.map_map]; rfl
    exact h1.nodup_iff.2 hr.awf.ids
  constructor
  · refine ⟨_, rfl, ?_⟩
    show (s.c.map.map (·.addr)).head? = _
    rw [List.head?_eq_getElem?, List.getElem?_map]
  · intro i n hn
    have h1 := after_index hnd (i := i) (p := n.addr) (by rw [List.getElem?_map, hn]; rfl)
    refine ⟨{ pos := (s.c.map.map (·.addr))[i + 1]? }, ?_, by rw [List.getElem?_map]⟩
    unfold Impl.uNext
    rw [bind_ok (m := Impl.mapAddrs) (s := s) rfl]
    simp only [h1]
    rfl

/-! ### C34 -/

/-- C34: an ordered iterator at `q` denoting the entry `x`, and a reference to the value of `x`, still denote that
entry (at the same address, with the same key) after any calls, as long as the entry is in the cache. -/
theorem C34_iterators_stay_valid (hO : NoListFault O) (hs : Reachable O s) {h : List (Call K V)}
    (hh : History O s h s') (hq : At s.c q x) (hy : y ∈ elements s'.c) (ha : y.addr = x.addr) :
    At s'.c q y ∧ y.key = x.key := by
  have hs' := hh.reachable hO hs
  obtain ⟨q', hq'⟩ := hs'.at_of_mem hO hy
  rcases (hh.grown hO hs).at_ q' y hq' with ⟨z, hz, h1, h2, _⟩ | h1
  · have := hs.addr_inj hO hz.1 hq.1 (h1.trans ha)
    subst this
    obtain ⟨t, hr, ht⟩ := hs.rel hO
    obtain ⟨a, ha1, ha2, rfl⟩ := (hr.at_iff ht).1 hz
    obtain ⟨b, hb1, hb2, rfl⟩ := (hr.at_iff ht).1 hq
    have : a = b := map_inj_of_nodup hr.awf.ids a ha1 b hb1
      (show a.node.addr = b.node.addr by rw [ha2, hb2])
    subst this
    exact ⟨hq', h2.symm⟩
  · obtain ⟨t, hr, _⟩ := hs.rel hO
    have := hr.addr_lt hq.1
    rw [ha] at h1
    exact absurd (Nat.lt_of_lt_of_le this h1) (Nat.lt_irrefl _)

/-- C34 for one call that returns or throws. -/
theorem C34_one_call (hO : NoListFault O) (hs : Reachable O s)
    (hd : Returns O op s r s' ∨ Throws O op s e s') (hq : At s.c q x) (hy : y ∈ elements s'.c) (ha : y.addr = x.addr) :
    At s'.c q y ∧ y.key = x.key := by
  rcases hd with hd | hd
  · exact C34_iterators_stay_valid hO hs (.ok .nil hd) hq hy ha
  · exact C34_iterators_stay_valid hO hs (.throw .nil hd) hq hy ha

/-- A valid ordered iterator of a plain cache can be used: `key()` and `value()` give what the entry holds; so do an
unordered iterator and a reference to the entry. -/
theorem C34_valid_iterators_can_be_read (hO : NoListFault O) (hs : Reachable O s) (hb : s.c.kind = .basic)
    (hq : At s.c q x) :
    (∃ s', Returns O (.oKey (some q)) s (.key x.key) s') ∧
    (∃ s', Returns O (.oValue (some q)) s (.value x.info.value) s') ∧
    (∃ s', Returns O (.uKey (some x.addr)) s (.key x.key) s') ∧
    (∃ s', Returns O (.uValue (some x.addr)) s (.value x.info.value) s') ∧
    (∃ s', Returns O (.read x.addr) s (.value x.info.value) s') := by
  obtain ⟨t, hr, ht⟩ := hs.rel hO
  obtain ⟨a, ha, rfl, rfl⟩ := (hr.at_iff ht).1 hq
  have hx : expiredAt O t.c.kind t.g a.time = false := by
    rw [← hr.rep.kind, hb]; rfl
  have h1 := oKey_own (O := O) ht ha
  have h2 := oValue_own (O := O) ht ha
  have h3 := uKey_own (O := O) ht ha
  have h4 := uValue_own (O := O) ht ha
  rw [hx] at h1 h2 h3 h4
  refine ⟨?_, ?_, ?_, ?_, ?_⟩
  · obtain ⟨s', h, _⟩ := hr.back_ok (op := .oKey (some a.slot)) hO (bind_ok h1); exact ⟨s', h⟩
  · obtain ⟨s', h, _⟩ := hr.back_ok (op := .oValue (some a.slot)) hO (bind_ok h2); exact ⟨s', h⟩
  · obtain ⟨s', h, _⟩ := hr.back_ok (op := .uKey (some a.id)) hO (bind_ok h3); exact ⟨s', h⟩
  · obtain ⟨s', h, _⟩ := hr.back_ok (op := .uValue (some a.id)) hO (bind_ok h4); exact ⟨s', h⟩
  · obtain ⟨s', h, _⟩ := hr.back_ok (op := .read a.id) hO (bind_ok (read_own ht ha)); exact ⟨s', h⟩

/-- The iterator to key 3 still denotes key 3 after another key has been inserted into the full cache. -/
example : let s := demoState calmO demo3 0
    ∃ q, position s.c 1 = some q ∧
      ((Impl.step calmO (.insert 4 40) s).state.bind
        (fun s' => (Impl.step calmO (.oKey (some q)) s').result)) = some (.key 3) :=
  ⟨(position (demoState calmO demo3 0).c 1).getD 0, by decide +kernel, by decide +kernel⟩

/-! ### C36 -/

/-- C36: queries and iterator operations change neither entries, values, order, capacity, class, statistics object,
callbacks nor the last-accessed state; no statistics object changes and no callback is called. This holds whether the
call returns or throws. -/
theorem C36_queries_have_no_side_effects (hO : NoListFault O) (h : Reachable O s) (hq : op.query = true)
    (hd : Returns O op s r s' ∨ Throws O op s e s') :
    SameCache s.c s'.c ∧ s'.c.last = s.c.last ∧ NothingRecorded s s' := by
  have key : ∀ t t' : St (MCache K V) K V, Rel s t → Rel s' t' → (t'.c = t.c ∧ Quiet t.g t'.g) →
      SameCache s.c s'.c ∧ s'.c.last = s.c.last ∧ NothingRecorded s s' := by
    rintro t t' hr hr' ⟨h1, h2⟩
    refine ⟨hr.same hr' (by rw [h1]) (by rw [h1]) (by rw [h1]) (by rw [h1]), ?_, ?_⟩
    · rw [hr.rep.last, hr'.rep.last, h1]
    · exact hr.silent hr' h2.log h2.stats
  rcases hd with hd | hd
  · obtain ⟨t, t', hr, ht, hm, hr', _⟩ := h.returns hO hd
    have := query_ro (O := O) op hq t
    rw [hm] at this
    exact key t t' hr hr' this
  · obtain ⟨t, t', hr, ht, hm, hr', _⟩ := h.throws hO hd
    have := query_ro (O := O) op hq t
    rw [hm] at this
    exact key t t' hr hr' this

/-- An iterator operation in a monitored cache with a callback. -/
example : let s := demoState calmO ([.create .basic (.sized 3), .op 0 (.monitorNew []), .op 0 (.addAccessCallback 7),
      .op 0 (.insert 1 10), .op 0 (.insert 2 20), .op 0 (.contains 1)] : List (WOp Nat Nat)) 0
    s.g.log.length = 1 ∧ ((Impl.step calmO (.oValue (position s.c 0)) s).state.map
      fun s' => (entries s'.c, s'.g.log.length)) = some ([(2, 20), (1, 10)], 1) := by
  exact ⟨by decide +kernel, by decide +kernel⟩

/-! ### C37 -/

/-- C37: converting a valid unordered iterator gives the ordered iterator to the same entry. -/
theorem C37_conversion (hO : NoListFault O) (h : Reachable O s) (hx : x ∈ elements s.c) :
    ∃ q, At s.c q x ∧ Returns O (.toOrdered (some x.addr)) s (.pos (some q)) s := by
  obtain ⟨t, hr, ht⟩ := h.rel hO
  obtain ⟨a, ha, rfl, ha'⟩ := hr.ent_of_mem ht hx
  refine ⟨a.slot, (hr.at_iff ht).2 ⟨a, ha, rfl, rfl⟩, ?_⟩
  have hf : s.c.map.find? (fun n => n.addr == a.id) = some a.node := by
    rw [hr.rep.find_addr hr.awf, find?_key hr.awf.ids ha]; rfl
  refine bind_ok (m := Impl.toOrdered { pos := some a.id }) (a := { pos := some a.slot }) ?_
  unfold Impl.toOrdered
  have h1 : Impl.derefIt (some a.id) s = .ok a.node s := by
    unfold Impl.derefIt
    simp only [hf]
  simp only
  rw [bind_ok h1, show a.node.info.order = a.ord from rfl, ht.clean.linked a ha]
  rfl

/-- C37: converting the past-the-end iterator throws, in every state. -/
theorem C37_conversion_of_end (O : Oracle K V) (s : St (Cache K V) K V) :
    Throws O (.toOrdered none) s .invalidIteratorConversion s := rfl

/-- C37: valid ordered and unordered iterators compare equal iff they denote the same entry or are both past the
end. The comparison neither throws nor terminates the program, and changes nothing. -/
theorem C37_comparison (hO : NoListFault O) (h : Reachable O s) {o u : Option Ptr} (ho : ValidO s.c o)
    (hu : ValidU s.c u) :
    ∃ b, Returns O (.eqOU o u) s (.bool b) s ∧ (b = true ↔ SamePlace s.c o u) := by
  rcases hu with rfl | ⟨x, hx, rfl⟩
  · refine ⟨o == none, rfl, ?_⟩
    rw [beq_iff_eq]
    constructor
    · rintro rfl; exact .inl ⟨rfl, rfl⟩
    · rintro (⟨h1, _⟩ | ⟨_, _, _, h2, _⟩)
      · exact h1
      · cases h2
  · obtain ⟨q, hq, hd⟩ := C37_conversion hO h hx
    obtain ⟨it, h1, h2⟩ := ret_ok_inv hd
    refine ⟨o == it.pos, ?_, ?_⟩
    · refine bind_ok (m := Impl.eqOU { pos := o } { pos := some x.addr }) ?_
      unfold Impl.eqOU
      show M.noexcept _ s = _
      unfold M.noexcept
      simp only
      rw [bind_ok h1]
      rfl
    · injection h2 with h2
      rw [beq_iff_eq, ← h2]
      obtain ⟨t, hr, ht⟩ := h.rel hO
      constructor
      · rintro rfl
        exact .inr ⟨q, x, rfl, rfl, hq⟩
      · rintro (⟨_, h3⟩ | ⟨q', z, rfl, h3, h4⟩)
        · cases h3
        · injection h3 with h3
          have := h.addr_inj hO hq.1 h4.1 h3
          subst this
          obtain ⟨a, ha1, ha2, rfl⟩ := (hr.at_iff ht).1 hq
          obtain ⟨b, hb1, hb2, rfl⟩ := (hr.at_iff ht).1 h4
          have : a = b := map_inj_of_nodup hr.awf.ids a ha1 b hb1
            (show a.node.addr = b.node.addr by rw [ha2, hb2])
          rw [this]

/-- Comparing the iterators to the first entry gives `true`, to the first and the second one `false`. -/
example : let s := demoState calmO demo3 0
    ∃ a b, (elements s.c)[0]?.map (·.addr) = some a ∧ (elements s.c)[1]?.map (·.addr) = some b ∧
      (Impl.step calmO (.eqOU (position s.c 0) (some a)) s).result = some (.bool true) ∧
      (Impl.step calmO (.eqOU (position s.c 0) (some b)) s).result = some (.bool false) :=
  ⟨((elements (demoState calmO demo3 0).c)[0]?.map (·.addr)).getD 0,
   ((elements (demoState calmO demo3 0).c)[1]?.map (·.addr)).getD 0,
   by decide +kernel, by decide +kernel, by decide +kernel, by decide +kernel⟩

/-! ### C38 -/

/-- C38 for ordered iterators and for erasing: in every state, `key()` and `value()` (and with them `entry()`) of the
past-the-end ordered iterator, and `erase` of either past-the-end iterator, throw `InvalidIterator` and change
nothing. Missing: unordered iterators, where the code dereferences before it checks
(`C38_unordered_end_is_undefined`). -/
theorem C38_past_the_end_throws_partial (O : Oracle K V) (s : St (Cache K V) K V) :
    Throws O (.oKey none) s .invalidIterator s ∧ Throws O (.oValue none) s .invalidIterator s ∧
    Throws O (.eraseO none) s .invalidIterator s ∧ Throws O (.eraseU none) s .invalidIterator s :=
  ⟨rfl, rfl, rfl, rfl⟩

/-- C38 fails for unordered iterators, in every state: `base-unordered-iterator.hpp` 181-188 dereferences the
past-the-end position before `throw_if_invalid` looks at it. -/
theorem C38_unordered_end_is_undefined (O : Oracle K V) (s : St (Cache K V) K V) :
    Impl.step O (.uKey none) s = .ub ∧ Impl.step O (.uValue none) s = .ub := ⟨rfl, rfl⟩

theorem C38_refuted : ¬ ∀ (O : Oracle Nat Nat) (s : St (Cache Nat Nat) Nat Nat), Calm O → Reachable O s →
    Throws O (.uKey none) s .invalidIterator s := by
  intro h
  have := h calmO _ calmO_calm demo3_reachable
  rw [Throws, (C38_unordered_end_is_undefined _ _).1] at this
  cases this

/-! ### C56 -/

/-- C56: inserting, emplacing or accessing with a key equivalent to the key of a stored entry acts on that entry, and
the entry keeps reporting its own key. -/
theorem C56_first_representative (hO : NoListFault O) (hs : Reachable O s) (hx : x ∈ elements s.c)
    (hk : keq x.key k = true) (ho : (∃ v, op.Inserts k v) ∨ op.Accesses k)
    (hd : Returns O op s r s' ∨ Throws O op s e s') :
    ∃ y ∈ elements s'.c, y.addr = x.addr ∧ y.key = x.key ∧ entryFor s'.c k = some y := by
  have hr0 := hs.rel hO
  obtain ⟨t, hr, ht⟩ := hr0
  obtain ⟨a, ha, rfl, _⟩ := hr.ent_of_mem ht hx
  have hf : t.c.ents.find? (fun y => keq y.key k) = some a := by
    refine find?_of_unique ha hk fun b hb hbk => ?_
    exact key_inj_of_pairwise' hr.awf.keys b hb a ha hbk hk
  have fin : ∀ t', Rel s' t' → (∃ b ∈ t'.c.ents, b.id = a.id ∧ b.key = a.key) →
      ∃ y ∈ elements s'.c, y.addr = a.node.addr ∧ y.key = a.node.key ∧ entryFor s'.c k = some y := by
    rintro t' hr' ⟨b, hb, h1, h2⟩
    refine ⟨b.node, by rw [hr'.elements]; exact List.mem_map.2 ⟨b, hb, rfl⟩, h1, h2, ?_⟩
    have hbk : keq b.key k = true := by rw [h2]; exact hk
    rw [hr'.entryFor]
    have : t'.c.ents.find? (fun y => keq y.key k) = some b := by
      refine find?_of_unique hb hbk fun c hc hck => ?_
      exact key_inj_of_pairwise' hr'.awf.keys c hc b hb hck hbk
    rw [this]; rfl
  have keep : ∀ t', SameEnts t t' → ∃ b ∈ t'.c.ents, b.id = a.id ∧ b.key = a.key := by
    intro t' h
    have h1 : a.frame ∈ t'.c.ents.map Ent.frame := h.mem_iff.2 (List.mem_map.2 ⟨a, ha, rfl⟩)
    obtain ⟨b, hb, h2⟩ := List.mem_map.1 h1
    unfold Ent.frame at h2
    injection h2 with h2 h3
    injection h3 with h3 h4
    injection h4 with h4 h5
    exact ⟨b, hb, h2, h4⟩
  have hpost : (Mid.step O op t).Post fun t' => ∃ b ∈ t'.c.ents, b.id = a.id ∧ b.key = a.key := by
    rcases ho with ⟨v, ho⟩ | ho
    · have key : ∀ {o}, InsertOut O k v t o → o.Post fun t' => ∃ b ∈ t'.c.ents, b.id = a.id ∧ b.key = a.key := by
        intro o h
        cases h with
        | unset => trivial
        | zero => exact ⟨a, ha, rfl, rfl⟩
        | fault => exact ⟨a, ha, rfl, rfl⟩
        | full _ _ _ _ h => rw [hf] at h; cases h
        | room _ _ _ h => rw [hf] at h; cases h
        | update _ b _ h =>
          rw [hf] at h
          injection h with h
          subst h
          exact ⟨{ a with val := v }, List.mem_append_right _ (List.mem_singleton.2 rfl), rfl, rfl⟩
        | updateFault _ b _ _ h =>
          rw [hf] at h
          injection h with h
          subst h
          exact ⟨_, List.mem_append_right _ (List.mem_singleton.2 rfl), rfl, rfl⟩
      rcases ho with rfl | rfl
      · exact ret_post (key (insert_out ht hO k v))
      · exact ret_post (key (emplace_out ht hO k v))
    · exact (access_sameEnts ht ho).imp fun _ h => keep _ h
  rcases hd with hd | hd
  · obtain ⟨t', hm, hr', _⟩ := hr.returns hO ht hd
    rw [hm] at hpost
    exact fin t' hr' hpost
  · obtain ⟨t', hm, hr', _⟩ := hr.throws hO ht hd
    rw [hm] at hpost
    exact fin t' hr' hpost

/-- C56: an entry reports the key under which it was first inserted for as long as it is stored, whatever is called
with equivalent keys. -/
theorem C56_representative_kept (hO : NoListFault O) (hs : Reachable O s) {h : List (Call K V)}
    (hh : History O s h s') (hx : x ∈ elements s.c) (hy : y ∈ elements s'.c) (ha : y.addr = x.addr) :
    y.key = x.key := (hh.same_entry hO hs hx hy ha).1

/-- C56: a value stored with an equivalent key is the value the entry then has, and there is still only one entry for
the class. -/
theorem C56_update_through_equivalent_key (hO : NoListFault O) (hs : Reachable O s) (hx : x ∈ elements s.c)
    (hk : keq x.key k = true) (hi : op.Inserts k v) {b : Bool} {p : Option Ptr}
    (hd : Returns O op s (.inserted b p) s') (hp : p ≠ none) :
    b = false ∧ p = some x.addr ∧
    ∃ y ∈ elements s'.c, y.addr = x.addr ∧ y.key = x.key ∧ y.info.value = v ∧
      ∀ z ∈ elements s'.c, keq z.key k = true → z = y := by
  obtain ⟨t, t', b', p', hr, ht, ho, hr', he⟩ := hs.inserts hO hi hd
  injection he with h1 h2
  subst h1 h2
  obtain ⟨a, ha, rfl, _⟩ := hr.ent_of_mem ht hx
  have hf : t.c.ents.find? (fun y => keq y.key k) = some a := by
    refine find?_of_unique ha hk fun b hb hbk => ?_
    exact key_inj_of_pairwise' hr.awf.keys b hb a ha hbk hk
  cases ho with
  | zero => exact absurd rfl hp
  | full _ _ _ _ h => rw [hf] at h; cases h
  | room _ _ _ h => rw [hf] at h; cases h
  | update _ c _ h =>
    rw [hf] at h
    injection h with h
    subst h
    have hm : ({ a with val := v } : Ent K V) ∈ without a t.c.ents ++ [{ a with val := v }] :=
      List.mem_append_right _ (List.mem_singleton.2 rfl)
    refine ⟨rfl, rfl, ({ a with val := v } : Ent K V).node, ?_, rfl, rfl, rfl, ?_⟩
    · rw [hr'.elements]; exact List.mem_map.2 ⟨_, hm, rfl⟩
    · intro z hz hzk
      rw [hr'.elements] at hz
      obtain ⟨c, hc, rfl⟩ := List.mem_map.1 hz
      rw [key_inj_of_pairwise' hr'.awf.keys c hc _ hm hzk hk]

/-- Letters compared without regard to case. -/
structure Letter where
  code : Nat
  upper : Bool
  deriving DecidableEq

instance letterKeyEqual : KeyEqual Letter where
  keq a b := a.code == b.code
  refl := by simp
  symm a b := BEq.comm
  trans a b c h h' := by rw [eq_of_beq h]; exact h'

/-- The entry inserted as `a` is updated and found as `A`, and still reported as `a`. -/
example : let O : Oracle Letter Nat := ⟨fun n => n, fun _ _ => false, fun _ old _ => old, fun _ l => l, fun _ _ => List.Perm.refl _⟩
    let s := demoState O ([.create .basic (.sized 3), .op 0 (.insert ⟨1, false⟩ 10), .op 0 (.insert ⟨2, false⟩ 20),
      .op 0 (.insert ⟨1, true⟩ 11)] : List (WOp Letter Nat)) 0
    entries s.c = [(⟨2, false⟩, 20), (⟨1, false⟩, 11)] ∧
    ((Impl.step O (.lookup ⟨1, true⟩) s).state.map fun s' => entries s'.c) =
      some [(⟨2, false⟩, 20), (⟨1, false⟩, 11)] := ⟨by decide +kernel, by decide +kernel⟩

/-! ### C58 -/

/-- C58: after a hit on its key, an ordered iterator to the entry is still valid and is the last position. -/
theorem C58_looked_up_position_is_last (hO : NoListFault O) (hA : NoAssignFault O) (h : Reachable O s)
    (hq : At s.c q x) (hk : keq x.key k = true) (ha : op.Accesses k) (hd : Returns O op s r s') (hm : ¬ Miss r) :
    At s'.c q x ∧ Returns O (.oNext (some q)) s' (.pos none) s' := by
  obtain ⟨z, h1, _, h3, _⟩ := C07_hit_moves_entry_to_most_recent hO hA h ha hd hm
  have hzx : z = x := by
    obtain ⟨t, hr, ht⟩ := h.rel hO
    obtain ⟨a, ha, rfl, _⟩ := hr.ent_of_mem ht hq.1
    obtain ⟨b, hb, rfl⟩ := hr.entryFor_some h1
    rw [key_inj_of_pairwise' hr.awf.keys b (find_mem hb).1 a ha (find_mem hb).2 hk]
  subst hzx
  have hmem : z ∈ elements s'.c := by rw [h3]; exact List.mem_append_right _ (List.mem_singleton.2 rfl)
  have hat := (C34_one_call (e := .badAlloc) hO h (.inl hd) hq hmem rfl).1
  refine ⟨hat, ?_⟩
  have hs' := h.after hO hd
  obtain ⟨i, hi, hp, hx, hu⟩ := C35_positions_are_all hO hs' hat
  have hc : count s'.c = (others s.c k).length + 1 := by unfold count; rw [h3]; simp
  have hlast : (elements s'.c)[(others s.c k).length]? = some z := by rw [h3]; simp
  obtain ⟨q2, h5, h6⟩ := (C35_positions_denote_entries hO hs' _).1 _ hlast
  have hq2 : q2 = q := by
    obtain ⟨t, hr, ht⟩ := hs'.rel hO
    obtain ⟨a, ha1, ha2, rfl⟩ := (hr.at_iff ht).1 h6
    obtain ⟨b, hb1, hb2, rfl⟩ := (hr.at_iff ht).1 hat
    rw [map_inj_of_nodup hr.awf.ids a ha1 b hb1 (show a.node.addr = b.node.addr by rw [ha2, hb2])]
  subst hq2
  have := ((C35_increment_and_decrement hO hs').2 _ (by omega : (others s.c k).length < count s'.c)).1
  rw [h5, ← hc, (C35_positions_denote_entries hO hs' _).2 (Nat.le_refl _)] at this
  exact this

/-- The iterator to key 2 (the least recently used one) becomes the last position when 2 is looked up. -/
example : let s := demoState calmO demo3 0
    ((Impl.step calmO (.oNext (position s.c 0)) s).result = some (.pos (position s.c 1))) ∧ position s.c 1 ≠ none ∧
    ((Impl.step calmO (.lookup 2) s).state.bind
      (fun s' => (Impl.step calmO (.oNext (position s.c 0)) s').result)) = some (.pos none) :=
  ⟨by decide +kernel, by decide +kernel, by decide +kernel⟩

/-! ### C59 -/

/-- C59: assigning through a reference to the value of entry `x` changes the value of that entry and nothing else. -/
theorem C59_write_changes_one_value (hO : NoListFault O) (h : Reachable O s) (hx : x ∈ elements s.c) (v : V) :
    ∃ s', Returns O (.write x.addr v) s .unit s' ∧
      elements s'.c = (elements s.c).map
        (fun y => if y.addr = x.addr then { y with info := { y.info with value := v } } else y) ∧
      OnlyEntries s s' ∧ s'.c.last = s.c.last := by
  obtain ⟨t, hr, ht⟩ := h.rel hO
  obtain ⟨a, ha, rfl, _⟩ := hr.ent_of_mem ht hx
  obtain ⟨s', h1, hr'⟩ := hr.back_ok (op := .write a.id v) hO (bind_ok (write_own ht ha v))
  refine ⟨s', h1, ?_, ?_, ?_⟩
  · rw [hr.elements, hr'.elements]
    simp only [List.map_map]
    refine List.map_congr_left fun y _ => ?_
    simp only [Function.comp]
    by_cases hy : y.id = a.id
    · rw [if_pos hy, if_pos (show y.node.addr = a.node.addr from hy)]; rfl
    · rw [if_neg hy, if_neg (show ¬ y.node.addr = a.node.addr from hy)]
  · refine ⟨?_, ?_, ?_, ?_⟩
    · rw [hr'.rep.cap, hr.rep.cap]
    · rw [hr'.rep.kind, hr.rep.kind]
    · rw [hr'.rep.obs, hr.rep.obs]
    · rw [hr'.g, hr.g]
  · rw [hr'.rep.last, hr.rep.last]

/-- C59: after `cache[k] = v` (a lookup of the plain cache whose result is assigned to), `lookup`, `find`, ordered and
unordered iterators and the reference itself give `v` for `k`. -/
theorem C59_write_is_visible (hO : NoListFault O) (hC : NoCallbackFault O) (h : Reachable O s) (hb : s.c.kind = .basic)
    {p : Ptr} {v0 : V} {s1 s2 : St (Cache K V) K V} (hl : Returns O (.lookup k) s (.ref p v0) s1)
    (hw : Returns O (.write p v) s1 .unit s2) :
    ∃ x, entryFor s2.c k = some x ∧ x.addr = p ∧ x.info.value = v ∧
      (∃ s3, Returns O (.lookup k) s2 (.ref p v) s3) ∧ (∃ s3, Returns O (.find k) s2 (.pos (some p)) s3) ∧
      (∃ q, At s2.c q x ∧ ∃ s3, Returns O (.oValue (some q)) s2 (.value v) s3) ∧
      (∃ s3, Returns O (.uValue (some p)) s2 (.value v) s3) ∧ (∃ s3, Returns O (.read p) s2 (.value v) s3) ∧
      ∀ k', keq k k' = false → entryFor s2.c k' = entryFor s.c k' := by
  have hs1 := h.after hO hl
  have hs2 := hs1.after hO hw
  have hk2 : s2.c.kind = .basic := by
    rw [(grown_returns hO hs1 hw).kind, (grown_returns hO h hl).kind, hb]
  have hst : ∀ k', entryFor s1.c k' = entryFor s.c k' := access_keeps_stored hO h (.inr (.inr rfl)) hl
  have hp : ∃ y, entryFor s.c k = some y ∧ y.addr = p := by
    obtain ⟨t, t', hr, ht, ho, hr'⟩ := h.access hO (.inr (.inr rfl)) hl
    cases ho with
    | last z _ _ h2 _ h4 =>
      refine ⟨z.node, by rw [hr.entryFor, h2]; rfl, ?_⟩
      have h4 : Res.ref p v0 = .ref z.node.addr z.node.info.value := h4
      injection h4 with h4 _; exact h4.symm
    | hit z _ j h2 _ h4 _ =>
      refine ⟨z.node, by rw [hr.entryFor, h2]; rfl, ?_⟩
      have h4 : Res.ref p v0 = .ref z.node.addr z.node.info.value := h4
      injection h4 with h4 _; exact h4.symm
    | absent _ _ h2 => rcases h2 with h2 | h2 <;> cases h2
    | expired _ _ _ _ _ h2 => rcases h2 with h2 | h2 <;> cases h2
  obtain ⟨y, hy, rfl⟩ := hp
  rw [← hst] at hy
  obtain ⟨t, hr, ht⟩ := hs1.rel hO
  obtain ⟨a, ha, rfl⟩ := hr.entryFor_some hy
  obtain ⟨ha1, ha2⟩ := find_mem ha
  have hy1 : a.node ∈ elements s1.c := by rw [hr.elements]; exact List.mem_map.2 ⟨a, ha1, rfl⟩
  obtain ⟨s2', h1, h2, _, _⟩ := C59_write_changes_one_value hO hs1 hy1 v
  have := h1.symm.trans hw
  injection this with _ this
  subst this
  have hfind : ∀ k', entryFor s2'.c k' = (entryFor s1.c k').map
      (fun y => if y.addr = a.node.addr then { y with info := { y.info with value := v } } else y) := by
    intro k'
    unfold entryFor
    rw [h2, find?_map_eq]
    congr 2
    funext z
    by_cases hz : z.addr = a.node.addr
    · rw [if_pos hz]
    · rw [if_neg hz]
  have hx2 : entryFor s2'.c k = some { a.node with info := { a.node.info with value := v } } := by
    rw [hfind, hy, Option.map_some, if_pos rfl]
  have hm2 : ({ a.node with info := { a.node.info with value := v } } : MapNode K V) ∈ elements s2'.c := by
    unfold entryFor at hx2
    exact List.mem_of_find?_eq_some hx2
  obtain ⟨q, hq⟩ := hs2.at_of_mem hO hm2
  obtain ⟨_, r2, _, r4, r5⟩ := C34_valid_iterators_can_be_read hO hs2 hk2 hq
  obtain ⟨_, a2, a3⟩ := (C16_access_outcome hO hC hs2 hk2 k).1 _ hx2
  refine ⟨_, hx2, rfl, rfl, a3, a2, ⟨q, hq, r2⟩, r4, r5, fun k' hk' => ?_⟩
  rw [hfind, hst]
  cases hz : entryFor s.c k' with
  | none => rfl
  | some z =>
    rw [Option.map_some, if_neg]
    intro hza
    rw [← hst] at hz
    obtain ⟨b, hb, rfl⟩ := hr.entryFor_some hz
    have := map_inj_of_nodup hr.awf.ids b (find_mem hb).1 a ha1 hza
    subst this
    have h5 := (find_mem hb).2
    have h6 : keq k k' = true := KeyEqual.trans _ _ _ (by rw [keq_comm]; exact ha2) h5
    rw [h6] at hk'
    cases hk'

/-- `cache[1] = 99`. -/
example : let s := demoState calmO ([.create .basic (.sized 3), .op 0 (.insert 1 10), .op 0 (.insert 2 20)] :
      List (WOp Nat Nat)) 0
    (∃ p, (Impl.step calmO (.lookup 1) s).result = some (.ref p 10) ∧
      ((Impl.step calmO (.lookup 1) s).state.bind fun s1 =>
        (Impl.step calmO (.write p 99) s1).state.map fun s2 => entries s2.c) = some [(2, 20), (1, 99)]) :=
  ⟨((elements (demoState calmO ([.create .basic (.sized 3), .op 0 (.insert 1 10), .op 0 (.insert 2 20)] :
      List (WOp Nat Nat)) 0).c)[0]?.map (·.addr)).getD 0, by decide +kernel, by decide +kernel⟩

end LRU
