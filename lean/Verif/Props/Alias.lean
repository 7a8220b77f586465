import Verif.Proofs.Alias
import Verif.Props.Ranges
import Verif.Props.Insert
import Verif.Props.Erase
import Verif.Props.Exceptions
import Verif.Spec.Demo
/-!
# C77, C78: arguments that refer into the cache

A single call may be given references to what the cache stores (C77). The ranges a cache itself offers cannot be inserted
into it in general: with ordered iterators the loop overtakes itself (C78).
-/

set_option linter.unusedSectionVars false
set_option autoImplicit false

namespace LRU

variable {K V : Type} [KeyEqual K] [DecidableEq K] [DecidableEq V] {O : Oracle K V} {s s' : St (Cache K V) K V}

/-! ### C77 -/

/-- C77. Calls whose arguments refer to keys and values stored in the cache do exactly what they do when given copies
made before the call, whatever the outcome. -/
theorem C77_references_like_copies (hO : NoListFault O) (hs : Reachable O s) {r : RefOp K V} {op : Op K V}
    (h : r.Copied s.c op) : Impl.stepRef O r s = Impl.step O op s := by
  have key : ∀ {α β : Type} {m : Impl.CM K V α} {m' : Impl.CM K V α} {f : α → β} (_ : m s = m' s),
      (m >>= fun a => pure (f a)) s = (m' >>= fun a => pure (f a)) s := by
    intro α β m m' f e
    show M.bind _ _ s = M.bind _ _ s
    unfold M.bind
    rw [e]
  cases h with
  | contains ha => exact key (containsRef_eq (ha.in hO hs))
  | find ha => exact key (findRef_eq (ha.in hO hs))
  | lookup ha => exact key (lookupRef_eq (ha.in hO hs))
  | erase ha => exact key (eraseRef_eq (ha.in hO hs))
  | hasExpired ha => exact key (hasExpiredRef_eq (ha.in hO hs))
  | insert ha hb => exact key (insertRef_eq (ha.in hO hs) (hb.in hO hs))
  | emplace ha hb => exact key (emplaceRef_eq (ha.in hO hs) (hb.in hO hs))

/-- C77, the critical case of insertion: the value given is the one of the entry that the insertion evicts. It is stored
all the same. -/
theorem C77_value_of_the_evicted_entry (hO : NoListFault O) (hs : Reachable O s) {x : MapNode K V}
    {rest : List (MapNode K V)} (hx : elements s.c = x :: rest) (hfull : s.c.capacity = some (count s.c)) {k : K}
    (hk : ¬ Stored s.c k) {a : KeyRef K} (ha : a.Denotes s.c k) {r : Res K V}
    (h : Impl.stepRef O (.insert a (.stored x.addr)) s = .ok r s' ∨
      Impl.stepRef O (.emplace a (.stored x.addr)) s = .ok r s') :
    entries s'.c = rest.map MapNode.pair ++ [(k, x.info.value)] := by
  have hv : ValueRef.Denotes s.c (.stored x.addr) x.info.value := ⟨x, by rw [hx]; exact List.mem_cons_self .., rfl, rfl⟩
  have hpos : 0 < count s.c := by unfold count; rw [hx]; simp
  have key : ∃ op : Op K V, op.Inserts k x.info.value ∧ Returns O op s r s' := by
    rcases h with h | h
    · exact ⟨_, .inl rfl, (C77_references_like_copies hO hs (.insert ha hv)).symm.trans h⟩
    · exact ⟨_, .inr rfl, (C77_references_like_copies hO hs (.emplace ha hv)).symm.trans h⟩
  obtain ⟨op, hi, hd⟩ := key
  obtain ⟨y, hy, _, h1, _⟩ := C04_insert_evicts_least_recent hO hs hi hk hfull hpos hd
  unfold entries
  rw [h1, hx, List.map_append]
  simp only [List.tail_cons, List.map_cons, List.map_nil, MapNode.pair, hy.1, hy.2]

/-- C77, the critical case of erasure: the key given is the one of the entry that is erased. Just this entry goes. -/
theorem C77_erasing_by_stored_key (hO : NoListFault O) (hs : Reachable O s) {x : MapNode K V} (hx : x ∈ elements s.c) :
    ∃ s', Impl.stepRef O (.erase (.stored x.addr)) s = .ok (.bool true) s' ∧ elements s'.c = others s.c x.key ∧
      OnlyEntries s s' := by
  obtain ⟨b, s', h1, h2, h3, _, h4⟩ := C09_erase_key hO hs x.key
  have h5 : b = true := h2.2 ⟨x, hx, KeyEqual.refl _⟩
  subst h5
  exact ⟨s', (C77_references_like_copies hO hs (.erase (a := .stored x.addr) (k := x.key) ⟨x, hx, rfl, rfl⟩)).trans h1, h3, h4⟩

/-- C77, converse: with a reference to the key of an entry that has left the cache every call is undefined (except that caches
of capacity 0 do not look at what they are to insert, and that `emplace` may run out of memory first). -/
theorem C77_dangling_key (hO : NoListFault O) (hs : Reachable O s) {p : Ptr} (hp : ∀ x ∈ elements s.c, x.addr ≠ p)
    {r : RefOp K V} (hr : r.key = .stored p) (hc : s.c.capacity ≠ some 0) :
    Impl.stepRef O r s = .ub ∨
      O.fails .construct s.g.steps = true ∧ (∃ k v, r = .emplace k v) ∧ ∃ s', Impl.stepRef O r s = .throw .badAlloc s' := by
  have hd : ∀ s1 : St (Cache K V) K V, s1.c.map = s.c.map → Impl.readKey (.stored p) s1 = .ub := by
    intro s1 h1
    have h2 : s1.c.map.find? (fun n => n.addr == p) = none := by
      rw [h1, List.find?_eq_none]
      intro n hn
      have := hp n ((hs.map_elements hO).mem_iff.1 hn)
      simpa using this
    refine bind_ub ?_
    unfold Impl.derefIt
    dsimp only
    rw [h2]
  have hcap : s.c.capacity = none ∧ Impl.readCapacity s = .ub ∨ ∃ n, n ≠ 0 ∧ Impl.readCapacity s = .ok n s := by
    unfold Impl.readCapacity
    cases h : s.c.capacity with
    | none => exact .inl ⟨rfl, rfl⟩
    | some n => exact .inr ⟨n, fun h0 => hc (by rw [h, h0]), rfl⟩
  cases r with
  | contains k =>
    cases hr
    exact .inl (bind_ub ((bind_ok (m := Impl.getObs) (s := s) rfl).trans (bind_ub (hd s rfl))))
  | find k =>
    cases hr
    exact .inl (bind_ub ((bind_ok (m := Impl.getObs) (s := s) rfl).trans (bind_ub (hd s rfl))))
  | lookup k =>
    cases hr
    exact .inl (bind_ub ((bind_ok (m := Impl.getObs) (s := s) rfl).trans (bind_ub (hd s rfl))))
  | erase k =>
    cases hr
    exact .inl (bind_ub (bind_ub (hd s rfl)))
  | hasExpired k =>
    cases hr
    exact .inl (bind_ub (bind_ub (hd s rfl)))
  | insert k v =>
    cases hr
    refine .inl (bind_ub ?_)
    rcases hcap with ⟨_, h⟩ | ⟨n, hn, h⟩
    · exact bind_ub h
    · refine (bind_ok h).trans ?_
      rw [if_neg hn]
      exact bind_ub (hd s rfl)
  | emplace k v =>
    cases hr
    rcases hcap with ⟨_, h⟩ | ⟨n, hn, h⟩
    · exact .inl (bind_ub (bind_ub h))
    · cases hf : O.fails .construct s.g.steps with
      | true =>
        refine .inr ⟨rfl, ⟨_, _, rfl⟩, { s with g := { s.g with steps := s.g.steps + 1 } }, bind_throw ((bind_ok h).trans ?_)⟩
        rw [if_neg hn]
        refine bind_throw ?_
        unfold attempt
        rw [if_pos hf]
      | false =>
        refine .inl (bind_ub ((bind_ok h).trans ?_))
        rw [if_neg hn]
        have ha : attempt O .construct s = .ok () { s with g := { s.g with steps := s.g.steps + 1 } } := by
          unfold attempt
          rw [if_neg (by simp [hf])]
        exact (bind_ok ha).trans (bind_ub (hd _ rfl))

/-- `cache.insert(4, value of 2)` in a full cache whose least recently used entry is `(2, 20)`, and erasing 2 by the
cache's own key: the hypotheses are met. -/
example : elements (demoState calmO demo3 0).c = (elements (demoState calmO demo3 0).c).head?.toList ++
      (elements (demoState calmO demo3 0).c).tail ∧
    entries (demoState calmO demo3 0).c = [(2, 20), (3, 30), (1, 10)] ∧
    ((elements (demoState calmO demo3 0).c).head?.map fun x =>
      ((Impl.stepRef calmO (.insert (.object 4) (.stored x.addr)) (demoState calmO demo3 0)).state.map
          fun s => entries s.c,
        (Impl.stepRef calmO (.erase (.stored x.addr)) (demoState calmO demo3 0)).state.map fun s => entries s.c)) =
      some (some [(3, 30), (1, 10), (4, 20)], some [(3, 30), (1, 10)]) :=
  ⟨by decide +kernel, by decide +kernel, by decide +kernel⟩

/-- A reference to the key 2 outlives the insertion that evicts 2: the hypotheses of `C77_dangling_key` are met. -/
example : ((elements (demoState calmO demo3 0).c).head?.map fun x =>
      ((elements (demoState calmO (demo3 ++ [.op 0 (.insert 4 40)]) 0).c).all (fun y => y.addr != x.addr),
        (Impl.stepRef calmO (.erase (.stored x.addr)) (demoState calmO (demo3 ++ [.op 0 (.insert 4 40)]) 0)).isUb,
        (Impl.stepRef calmO (.emplace (.stored x.addr) (.object 1)) (demoState calmO (demo3 ++ [.op 0 (.insert 4 40)]) 0)).isUb)) =
      some (true, true, true) ∧
    (demoState calmO (demo3 ++ [.op 0 (.insert 4 40)]) 0).c.capacity = some 3 :=
  ⟨by decide +kernel, by decide +kernel⟩

/-! ### C77: moving a stored value away -/

/-- C77. `emplace(k, std::move(value))` for the value of an entry `x` of the cache: it returns just when writing the
moved-from value to `x` and then emplacing the old value under `k` does, with the same result. -/
theorem C77_emplacing_a_moved_value (hO : NoListFault O) (hs : Reachable O s) {x : MapNode K V} (hx : x ∈ elements s.c)
    {mv : V → V} {a : KeyRef K} {k : K} (ha : a.Denotes s.c k) {b : Bool} {p : Option Ptr} :
    Impl.emplaceMove O mv a x.addr s = .ok (b, p) s' ↔
      ∃ s1, Returns O (.write x.addr (mv x.info.value)) s .unit s1 ∧
        Returns O (.emplace k x.info.value) s1 (.inserted b p) s' := by
  have hc : s.c.capacity ≠ some 0 := by
    intro hc
    rw [(C13_capacity_zero_is_empty hO hs hc).1] at hx
    cases hx
  have hf := hs.find_of_mem hO hx
  rw [emplaceMove_iff hf (ha.in hO hs) hc]
  constructor
  · intro h
    exact ⟨_, bind_ok (write_eq hf _), bind_ok h⟩
  · rintro ⟨s1, h1, h2⟩
    obtain ⟨_, h3, _⟩ := ret_ok_iff.1 h1
    rw [write_eq hf] at h3
    cases h3
    obtain ⟨⟨b', p'⟩, h4, h5⟩ := ret_ok_iff.1 h2
    injection h5 with h5 h6
    simp only at h5 h6
    subst h5 h6
    exact h4

/-- C77. Moving the value of an entry into the entry itself, `emplace(k, std::move(cache.lookup(k)))`, keeps it if the
call returns. -/
theorem C77_emplacing_onto_itself (hO : NoListFault O) (hs : Reachable O s) {x : MapNode K V} (hx : x ∈ elements s.c)
    {mv : V → V} {a : KeyRef K} (ha : a.Denotes s.c x.key) {b : Bool} {p : Option Ptr}
    (h : Impl.emplaceMove O mv a x.addr s = .ok (b, p) s') :
    b = false ∧ p = some x.addr ∧ elements s'.c = others s.c x.key ++ [x] := by
  have hc : s.c.capacity ≠ some 0 := by
    intro hc
    rw [(C13_capacity_zero_is_empty hO hs hc).1] at hx
    cases hx
  have hm := (hs.map_elements hO).mem_iff.2 hx
  have h1 := (emplaceMove_own (hs.tidy hO) hm mv (ha.in hO hs)).1 h
  obtain ⟨h2, h3, _⟩ := C06_insert_present_key_updates (op := .emplace x.key x.info.value) (k := x.key)
    (v := x.info.value) hO hs (.inr rfl) (hs.entryFor_of_mem hO hx) hc (bind_ok h1)
  injection h2 with h4 h5
  exact ⟨h4, h5, h3⟩

/-- C77 has a limit when the call throws: the value has been moved away by then and the entry is left with what remains.
(Given a copy instead, the entry holds what the assignment leaves, for example its old value, see C23.) -/
theorem C77_moved_value_lost_by_throw :
    ¬ ∀ (O : Oracle Nat Nat) (mv : Nat → Nat) (s s' : St (Cache Nat Nat) Nat Nat) (x : MapNode Nat Nat) (e : Err),
      Reachable O s → x ∈ elements s.c → Impl.emplaceMove O mv (.object x.key) x.addr s = .throw e s' →
      ∃ y ∈ elements s'.c, y.key = x.key ∧ y.info.value = x.info.value := by
  intro h
  have h1 : (⟨2, 2, ⟨20, some 3, 0⟩⟩ : MapNode Nat Nat) ∈ elements (demoState (faultyO .assign 11) demo3 0).c := by
    decide +kernel
  obtain ⟨s', h2, h3⟩ := Out.throw_fact (o := Impl.emplaceMove (faultyO .assign 11) (fun _ => 0) (.object 2) 2
    (demoState (faultyO .assign 11) demo3 0)) (e := .badAlloc) (f := fun s => entries s.c)
    (y := [(3, 30), (1, 10), (2, 0)]) (by decide +kernel) (by decide +kernel)
  obtain ⟨y, hy, h6, h7⟩ := h _ _ _ _ _ _ (demoState_reachable (by decide +kernel) rfl) h1 h2
  have h8 : (y.key, y.info.value) ∈ entries s'.c := List.mem_map.2 ⟨y, hy, rfl⟩
  simp only at h6 h7 h3
  rw [h3, h6, h7] at h8
  revert h8
  decide

/-- Moving the value of 2 to 4, which evicts 2; to 1; and to 2 itself. -/
example : (Impl.emplaceMove calmO (fun _ => 0) (.object 4) 2 (demoState calmO demo3 0)).state.map (fun s => entries s.c) =
      some [(3, 30), (1, 10), (4, 20)] ∧
    (Impl.emplaceMove calmO (fun _ => 0) (.object 1) 2 (demoState calmO demo3 0)).state.map (fun s => entries s.c) =
      some [(2, 0), (3, 30), (1, 20)] ∧
    (Impl.emplaceMove calmO (fun _ => 0) (.object 2) 2 (demoState calmO demo3 0)).state.map (fun s => entries s.c) =
      some [(3, 30), (1, 10), (2, 20)] :=
  ⟨by decide +kernel, by decide +kernel, by decide +kernel⟩

/-! ### C78 -/

/-- C78 where it holds: a range of the cache's own unordered iterators (`cache.insert(cache)`, or any part of it) is
inserted like a list of copies of its elements, whatever the outcome. -/
theorem C78_own_range_partial (hO : NoListFault O) (hs : Reachable O s) {pre mid post : List (MapNode K V)}
    (hm : s.c.map = pre ++ mid ++ post) {fuel : Nat} (hf : mid.length < fuel) :
    Impl.insertUnordered O (firstOf post) 0 fuel (firstOf (mid ++ post)) s =
      Impl.insertRange O (mid.map MapNode.pair) s := by
  rw [show Impl.insertUnordered O (firstOf post) 0 fuel (firstOf (mid ++ post)) s = _ from
    insertUnordered_eq mid hm (hs.tidy hO) 0 hf]
  show M.bind _ _ s = _
  unfold M.bind
  cases Impl.insertRange O (mid.map MapNode.pair) s with
  | ok n s1 => simp; rfl
  | _ => rfl

theorem own_inserts (hO : NoListFault O) (l : List (MapNode K V)) (hs : Reachable O s)
    (hl : ∀ x ∈ l, x ∈ elements s.c) (hd : l.Pairwise (fun x y => keq x.key y.key = false)) {n : Nat}
    (h : Impl.insertRange O (l.map MapNode.pair) s = .ok n s') :
    n = 0 ∧ elements s'.c = (elements s.c).filter (fun x => !l.any (fun y => keq y.key x.key)) ++ l := by
  induction l generalizing s n with
  | nil =>
    cases h
    exact ⟨rfl, by rw [List.filter_eq_self.2 (by intro x _; rfl), List.append_nil]⟩
  | cons x l ih =>
    have hx := hl x (List.mem_cons_self ..)
    have hc : s.c.capacity ≠ some 0 := by
      intro hc
      rw [(C13_capacity_zero_is_empty hO hs hc).1] at hx
      cases hx
    obtain ⟨r, s1, h1, h2⟩ := bind_ok_inv (show (Impl.insert O x.key x.info.value >>= _) s = _ from h)
    obtain ⟨m, s2, h3, h4⟩ := bind_ok_inv h2
    have hret : Returns O (.insert x.key x.info.value) s (.inserted r.1 r.2) s1 := bind_ok h1
    obtain ⟨h5, h6, _⟩ := C06_insert_present_key_updates (k := x.key) (v := x.info.value) hO hs (.inl rfl)
      (hs.entryFor_of_mem hO hx) hc hret
    have h6 : elements s1.c = others s.c x.key ++ [x] := h6
    obtain ⟨hd1, hd2⟩ := List.pairwise_cons.1 hd
    have hl1 : ∀ y ∈ l, y ∈ elements s1.c := by
      intro y hy
      rw [h6]
      refine List.mem_append_left _ (List.mem_filter.2 ⟨hl y (List.mem_cons_of_mem _ hy), ?_⟩)
      rw [keq_comm, hd1 y hy]
      rfl
    injection h5 with h5 _
    cases h4
    obtain ⟨h7, h8⟩ := ih (hs.after hO hret) hl1 hd2 h3
    refine ⟨by rw [h5, h7]; rfl, ?_⟩
    rw [h8, h6, List.filter_append, List.filter_cons_of_pos (l := [])]
    · rw [List.filter_nil, List.append_assoc, List.singleton_append]
      congr 1
      unfold others
      rw [List.filter_filter]
      apply List.filter_congr
      intro y _
      simp only [List.any_cons, Bool.not_or]
      rw [keq_comm x.key y.key, Bool.and_comm]
    · simp only [Bool.not_eq_true', List.any_eq_false]
      intro y hy
      rw [keq_comm, hd1 y hy]
      simp

/-- C78. `cache.insert(cache)` adds nothing and changes no value, but it replaces the order of use by the order of the
hash table. -/
theorem C78_inserting_a_cache_into_itself (hO : NoListFault O) (hs : Reachable O s) {fuel n : Nat}
    (hf : count s.c < fuel) (h : Impl.insertUnordered O { pos := none } 0 fuel (firstOf s.c.map) s = .ok n s') :
    n = 0 ∧ elements s'.c = s.c.map ∧ s.c.map.Perm (elements s.c) := by
  have hp := hs.map_elements hO
  have h1 := C78_own_range_partial (pre := []) (post := []) (fuel := fuel) hO hs (by simp : s.c.map = [] ++ s.c.map ++ [])
    (by rw [hp.length_eq]; exact hf)
  rw [List.append_nil] at h1
  obtain ⟨h2, h3⟩ := own_inserts hO s.c.map hs (fun x hx => hp.mem_iff.1 hx) (by
    obtain ⟨t, hr, _⟩ := hs.rel hO
    refine (hr.rep.map.pairwise_iff (fun {x y} hxy => by rw [keq_comm]; exact hxy)).2 ?_
    rw [List.pairwise_map]
    exact hr.awf.keys) (h1.symm.trans h)
  refine ⟨h2, ?_, hp⟩
  rw [h3, List.filter_eq_nil_iff.2, List.nil_append]
  intro x hx
  simp only [Bool.not_eq_true', Bool.not_eq_false, List.any_eq_true]
  exact ⟨x, hp.mem_iff.2 hx, KeyEqual.refl _⟩

/-- C78. The same for `cache.insert(std::move(cache))`: every value is moved out of its entry and back into it. -/
theorem C78_moving_a_cache_into_itself (hO : NoListFault O) (hs : Reachable O s) {mv : V → V} {fuel n : Nat}
    (hf : count s.c < fuel) :
    Impl.insertMoved O mv 0 fuel (firstOf s.c.map) s = .ok n s' ↔
      Returns O (.insertRangeMove (s.c.map.map MapNode.pair)) s (.nat n) s' := by
  have hp := hs.map_elements hO
  rw [show (Impl.insertMoved O mv 0 fuel (firstOf s.c.map) s = .ok n s') = _ from
    propext (insertMoved_iff mv s.c.map (pre := []) rfl (hs.tidy hO) 0 (by rw [hp.length_eq]; exact hf))]
  constructor
  · intro h
    obtain ⟨m, s1, h1, h2⟩ := bind_ok_inv h
    cases h2
    exact ret_ok_iff.2 ⟨m, h1, by simp⟩
  · intro h
    obtain ⟨m, h1, h2⟩ := ret_ok_iff.1 h
    injection h2 with h2
    subst h2
    refine (bind_ok h1).trans ?_
    show Out.ok _ _ = _
    simp

/-- C78, what happens with ordered iterators: `cache.insert(it, cache.ordered_end())` re-inserts the entry `it` denotes
and then ends, because that insertion has moved this entry to the end of the range. The entries after it in the range are
not inserted. -/
theorem C78_own_ordered_range (hO : NoListFault O) (hs : Reachable O s) {q : Ptr} {x : MapNode K V} (hx : At s.c q x)
    {fuel : Nat} (hf : 2 ≤ fuel) :
    Impl.insertOrdered O { pos := none } 0 fuel { pos := some q } s =
      (Impl.insert O x.key x.info.value >>= fun _ => pure 0) s := by
  obtain ⟨fuel, rfl⟩ : ∃ m, fuel = m + 2 := ⟨fuel - 2, by omega⟩
  rw [insertOrdered_step hO hs hx (by simp)]
  rfl

/-- C78, what happens with ordered iterators and another end: the range is left at the end of the list without having
met its own end, and the end of the list is dereferenced. -/
theorem C78_own_ordered_part_undefined (hO : NoListFault O) (hs : Reachable O s) {q e : Ptr} {x : MapNode K V}
    (hx : At s.c q x) (he : e ≠ q) {fuel : Nat} (hf : 2 ≤ fuel) :
    Impl.insertOrdered O { pos := some e } 0 fuel { pos := some q } s =
      (Impl.insert O x.key x.info.value >>= fun _ => M.ub) s := by
  obtain ⟨fuel, rfl⟩ : ∃ m, fuel = m + 2 := ⟨fuel - 2, by omega⟩
  rw [insertOrdered_step hO hs hx (by intro h; injection h with h; exact he h)]
  refine bind_eq_cases fun r s1 _ => ?_
  rfl

/-- C78, the effect of `cache.insert(it, cache.ordered_end())`: just the entry `it` denotes becomes the most recently used
one. -/
theorem C78_own_ordered_effect (hO : NoListFault O) (hs : Reachable O s) {q : Ptr} {x : MapNode K V} (hx : At s.c q x)
    {fuel n : Nat} (hf : 2 ≤ fuel) (h : Impl.insertOrdered O { pos := none } 0 fuel { pos := some q } s = .ok n s') :
    n = 0 ∧ elements s'.c = others s.c x.key ++ [x] := by
  rw [C78_own_ordered_range hO hs hx hf] at h
  obtain ⟨r, s1, h1, h2⟩ := bind_ok_inv h
  cases h2
  have hc : s.c.capacity ≠ some 0 := by
    intro hc
    have := hx.1
    rw [(C13_capacity_zero_is_empty hO hs hc).1] at this
    cases this
  have hret : Returns O (.insert x.key x.info.value) s (.inserted r.1 r.2) s' := bind_ok h1
  exact ⟨rfl, (C06_insert_present_key_updates (k := x.key) (v := x.info.value) hO hs (.inl rfl)
      (hs.entryFor_of_mem hO hx.1) hc hret).2.1⟩

/-- C78 is refuted: inserting the cache's own ordered range is not inserting its elements one by one. -/
theorem C78_own_range_refuted :
    ¬ ∀ (O : Oracle Nat Nat) (s s' : St (Cache Nat Nat) Nat Nat) (n : Nat), Calm O → Steady O → Reachable O s →
      Impl.insertOrdered O { pos := none } 0 (count s.c + 2) { pos := position s.c 0 } s = .ok n s' →
      OneByOne O .insert (entries s.c) s (.ok n) s' := by
  intro h
  obtain ⟨s', h1, h2⟩ := Out.ok_fact (o := Impl.insertOrdered calmO { pos := none } 0
      (count (demoState calmO demo3 0).c + 2) { pos := position (demoState calmO demo3 0).c 0 } (demoState calmO demo3 0))
    (a := 0) (f := fun s => entries s.c) (y := [(3, 30), (1, 10), (2, 20)]) (by decide +kernel) (by decide +kernel)
  have h3 := C30_range_insertion (e := .user) |>.1.2 (h _ _ _ _ calmO_calm calmO_steady demo3_reachable h1)
  obtain ⟨s2, h4, h5⟩ := Out.ok_fact (o := Impl.step calmO (.insertRange (entries (demoState calmO demo3 0).c))
      (demoState calmO demo3 0)) (a := .nat 0) (f := fun s => entries s.c) (y := [(2, 20), (3, 30), (1, 10)])
    (by decide +kernel) (by decide +kernel)
  have h6 := h3.symm.trans h4
  injection h6 with _ h6
  subst h6
  rw [h2] at h5
  revert h5
  decide

/-- C78 is refuted for safety too: inserting the first two of three entries is undefined. -/
theorem C78_own_range_safety_refuted :
    ¬ ∀ (O : Oracle Nat Nat) (s : St (Cache Nat Nat) Nat Nat) (i j : Nat), Calm O → Steady O → Reachable O s →
      i ≤ j → j ≤ count s.c →
      Impl.insertOrdered O { pos := position s.c j } 0 (count s.c + 2) { pos := position s.c i } s ≠ .ub := by
  intro h
  refine h calmO (demoState calmO demo3 0) 0 2 calmO_calm calmO_steady demo3_reachable (by decide) (by decide +kernel) ?_
  exact Out.isUb_iff.1 (by decide +kernel)

/-- The cache of these refutations, inserted into itself in the ways that are defined. -/
example : entries (demoState calmO demo3 0).c = [(2, 20), (3, 30), (1, 10)] ∧
    (Impl.insertUnordered calmO { pos := none } 0 4 (firstOf (demoState calmO demo3 0).c.map) (demoState calmO demo3 0)).state.map
      (fun s => entries s.c) = some [(3, 30), (2, 20), (1, 10)] ∧
    (Impl.insertMoved calmO (fun _ => 0) 0 4 (firstOf (demoState calmO demo3 0).c.map) (demoState calmO demo3 0)).state.map
      (fun s => entries s.c) = some [(3, 30), (2, 20), (1, 10)] :=
  ⟨by decide +kernel, by decide +kernel, by decide +kernel⟩

/-- An ordered iterator of this cache, for the hypotheses of the theorems about ordered ranges. -/
example : ∃ q x, position (demoState calmO demo3 0).c 1 = some q ∧ At (demoState calmO demo3 0).c q x ∧ x.key = 3 :=
  ⟨5, ⟨4, 3, ⟨30, some 5, 0⟩⟩, by decide +kernel, ⟨by decide +kernel, by decide +kernel⟩, rfl⟩

end LRU
