import Verif.Props.IterObjects
/-!
# C66: iterator objects, continued

Writing, swapping, postfix operators, unordered iterators, iterators past the end.
-/

set_option linter.unusedSectionVars false
set_option autoImplicit false

namespace LRU

variable {K V : Type} [KeyEqual K] [DecidableEq K] [DecidableEq V] {O : Oracle K V} {heap : Bool}
  {t t' : ISt K V} {i j : Nat} {x y : MapNode K V}

/-! ### Writing -/

theorem write_after_check {o : Out (St (Cache K V) K V) Unit} {its its' : Nat → It} {v : V}
    {m : Impl.CM K V (Res K V)} {a : Res K V} (he : Impl.entryOf O i t = checked o () its its') (hm : m t.s = checkedS o a)
    (hf : ∀ s1, o = .ok () s1 → Impl.storedNode i ⟨s1, its⟩ = .ok x ⟨s1, its⟩) :
    (Impl.istep O heap (.setValue i v) t).onCache = (m >>= fun _ => Impl.step O (.write x.addr v)) t.s := by
  show (Impl.ret (Impl.setValueI O i v) _ t).onCache = _
  unfold Impl.setValueI Impl.ret
  rw [bind_bind]
  cases o with
  | ok u s1 =>
    rw [bind_ok he, bind_ok hm, bind_bind, bind_ok (hf s1 rfl)]
    show ((Impl.onS (Impl.write x.addr v) >>= fun _ => pure Res.unit) _).onCache = Impl.ret (Impl.write x.addr v) _ s1
    unfold Impl.ret
    cases hw : (Impl.write x.addr v : Impl.CM K V Unit) s1 with
    | ok b s2 => rw [bind_ok (s' := ⟨s2, its⟩) (a := b) (by unfold Impl.onS; rw [hw]), bind_ok hw]; rfl
    | throw e s2 => rw [bind_throw (s' := ⟨s2, its⟩) (e := e) (by unfold Impl.onS; rw [hw]), bind_throw hw]; rfl
    | ub => rw [bind_ub (by unfold Impl.onS; rw [hw]), bind_ub hw]; rfl
    | terminate => rw [bind_terminate (by unfold Impl.onS; rw [hw]), bind_terminate hw]; rfl
    | diverge => rw [bind_diverge (by unfold Impl.onS; rw [hw]), bind_diverge hw]; rfl
  | throw e s1 => rw [bind_throw he, bind_throw hm]; rfl
  | ub => rw [bind_ub he, bind_ub hm]; rfl
  | terminate => rw [bind_terminate he, bind_terminate hm]; rfl
  | diverge => rw [bind_diverge he, bind_diverge hm]; rfl

theorem checkedS_ret {α : Type} {m : Impl.CM K V α} {f : α → Res K V} {s : St (Cache K V) K V}
    {o : Out (St (Cache K V) K V) Unit} {a : α} (h : m s = checkedS o a) : Impl.ret m f s = checkedS o (f a) := by
  unfold Impl.ret
  cases o with
  | ok u s1 => exact bind_ok h
  | throw e s1 => exact bind_throw h
  | ub => exact bind_ub h
  | terminate => exact bind_terminate h
  | diverge => exact bind_diverge h

/-- C66: assigning to `value()` of an iterator object that denotes `x` is reading it, with the exceptions that reading has, and then
assigning to the value of `x`, whether or not the object has stored the entry. -/
theorem C66_writes_like_a_reference (hO : NoListFault O) (h : IReachable O heap t) (hd : (t.its i).Denotes t.s.c x)
    (hl : (t.its i).Live t.s.c) (v : V) :
    (Impl.istep O heap (.setValue i v) t).onCache =
      (Impl.step O (t.its i).valueCall >>= fun _ => Impl.step O (.write x.addr v)) t.s := by
  have hs := (h.good hO).reach
  have he := h.entry hO hd hl
  obtain ⟨q, h1, h2⟩ := hd
  unfold It.valueCall
  cases ho : (t.its i).ordered with
  | true =>
    rw [ho, if_pos rfl] at h2
    rw [if_pos rfl, h1]
    refine write_after_check (entryOf_ordered hO hs ho h1 h2 he)
      (checkedS_ret (f := Res.value) (valueI_ordered hO hs ho h1 h2 he).2) fun s1 hc => ?_
    obtain ⟨h3, h4⟩ := check_same hO throwIfInvalidO_still throwIfInvalidO_callish hs hc
    exact storedNode_reads hO h3 (h4 ▸ h2.1)
  | false =>
    rw [ho, if_neg (by simp)] at h2
    obtain ⟨h2, rfl⟩ := h2
    rw [if_neg (by simp), h1]
    refine write_after_check (entryOf_unordered hO hs ho h1 h2 he)
      (checkedS_ret (f := Res.value) (valueI_unordered hO hs ho h1 h2 he).2) fun s1 hc => ?_
    obtain ⟨h3, h4⟩ := check_same hO throwIfInvalidU_still throwIfInvalidU_callish hs hc
    exact storedNode_reads hO h3 (h4 ▸ h2)

/-! ### Swapping, copies and postfix operators -/

/-- C66: `swap` exchanges two iterators of the same type, stored entries included, and nothing else. -/
theorem C66_swap (ho : (t.its i).ordered = (t.its j).ordered) :
    ∃ t', IPerforms O true (.swap i j) t (.ok .unit) t' ∧ t'.s = t.s ∧ t'.its i = t.its j ∧ t'.its j = t.its i ∧
      ∀ k, k ≠ i → k ≠ j → t'.its k = t.its k := by
  refine ⟨⟨t.s, fun k => if k = j then t.its i else if k = i then t.its j else t.its k⟩, ?_, rfl, ?_, if_pos rfl, ?_⟩
  · show Impl.ret (Impl.swapI true i j) _ t = _
    unfold Impl.ret Impl.swapI
    rw [bind_bind, bind_ok (m := Impl.getIt i) (s := t) rfl, bind_bind, bind_ok (m := Impl.getIt j) (s := t) rfl,
      if_pos (by simp [ho])]
    rfl
  · dsimp only
    by_cases hij : i = j
    · rw [if_pos hij, hij]
    · rw [if_neg hij, if_pos rfl]
  · intro k hi hj
    dsimp only
    rw [if_neg hj, if_neg hi]

/-- C66: copies do not take over the stored entry, so that they can be read even if the original has stored an entry that has left the
cache; nor do iterators that have been moved to another entry, or come from the cache. -/
theorem C66_fresh (hij : i ≠ j) {op : IOp K V} {k : K} {v : V} {b : Bool}
    (hop : op ∈ [.copy i j, .convert i j, .postInc i j, .postDec i j, .inc i, .begin i b, .fin i b, .find i k, .insert i k v])
    {r : Res K V} (hp : IPerforms O heap op t (.ok r) t') : (t'.its i).entry = none := by
  have set : ∀ {u : Unit} {it : It} {t : ISt K V}, it.entry = none → Impl.setIt i it t = .ok u t' → (t'.its i).entry = none := by
    intro u it t h hc
    cases hc
    show (if i = i then it else _).entry = none
    rw [if_pos rfl, h]
  have copy : ∀ {u : Unit}, Impl.copyI i j t = .ok u t' → (t'.its i).entry = none := by
    intro u hc
    unfold Impl.copyI at hc
    rw [bind_ok (m := Impl.getIt j) (s := t) rfl, if_neg hij] at hc
    exact set rfl hc
  have inv : ∀ {α β : Type} {m : Impl.IM K V α} {f : α → Impl.IM K V β} {t : ISt K V} {b : β}, (m >>= f) t = .ok b t' →
      ∃ a t1, m t = .ok a t1 ∧ f a t1 = .ok b t' := by
    intro α β m f t b hc
    exact bind_ok_inv hc
  have post : ∀ {u : Unit} {f : Nat → Impl.IM K V Unit}, Impl.postI f i j t = .ok u t' → (t'.its i).entry = none := by
    intro u f hc
    obtain ⟨it, t1, -, hc⟩ := inv hc
    obtain ⟨u, t2, -, hc⟩ := inv hc
    exact set rfl hc
  simp only [List.mem_cons, List.not_mem_nil, or_false] at hop
  rcases hop with rfl | rfl | rfl | rfl | rfl | rfl | rfl | rfl | rfl
  · obtain ⟨u, h1, -⟩ := ret_ok_inv (show Impl.ret _ _ t = .ok r t' from hp)
    exact copy h1
  · obtain ⟨u, h1, -⟩ := ret_ok_inv (show Impl.ret _ _ t = .ok r t' from hp)
    unfold Impl.convertI at h1
    rw [bind_ok (m := Impl.getIt j) (s := t) rfl] at h1
    split at h1
    · exact copy h1
    · obtain ⟨p, t1, -, h1⟩ := inv h1
      obtain ⟨o, t2, -, h1⟩ := inv h1
      exact set rfl h1
  · obtain ⟨u, h1, -⟩ := ret_ok_inv (show Impl.ret _ _ t = .ok r t' from hp)
    exact post h1
  · obtain ⟨u, h1, -⟩ := ret_ok_inv (show Impl.ret _ _ t = .ok r t' from hp)
    exact post h1
  · obtain ⟨u, h1, -⟩ := ret_ok_inv (show Impl.ret _ _ t = .ok r t' from hp)
    unfold Impl.incI at h1
    obtain ⟨it, t1, -, h1⟩ := inv h1
    obtain ⟨p, t2, -, h1⟩ := inv h1
    obtain ⟨q, t3, -, h1⟩ := inv h1
    exact set rfl h1
  · cases b with
    | true =>
      obtain ⟨u, h1, -⟩ := ret_ok_inv (show Impl.ret _ _ t = .ok r t' from hp)
      obtain ⟨o, t1, -, h1⟩ := inv h1
      exact set rfl h1
    | false =>
      obtain ⟨u, h1, -⟩ := ret_ok_inv (show Impl.ret _ _ t = .ok r t' from hp)
      obtain ⟨o, t1, -, h1⟩ := inv h1
      exact set rfl h1
  · obtain ⟨u, h1, -⟩ := ret_ok_inv (show Impl.ret _ _ t = .ok r t' from hp)
    exact set rfl h1
  · obtain ⟨a, t1, -, h1⟩ := inv (show (Impl.onS (Impl.step O (.find k)) >>= fun r => Impl.setIt i ⟨false, some (Impl.posIn r), none⟩ >>= fun _ => pure r) t = .ok r t' from hp)
    obtain ⟨u, t2, h2, h3⟩ := inv h1
    cases h3
    exact set rfl h2
  · obtain ⟨a, t1, -, h1⟩ := inv (show (Impl.onS (Impl.step O (.insert k v)) >>= fun r => Impl.setIt i ⟨false, some (Impl.posIn r), none⟩ >>= fun _ => pure r) t = .ok r t' from hp)
    obtain ⟨u, t2, h2, h3⟩ := inv h1
    cases h3
    exact set rfl h2

/-- C66: the postfix operators move the iterator like the prefix operators and return an iterator to where it was. -/
theorem C66_postfix (hO : NoListFault O) (h : IReachable O heap t) (hij : i ≠ j) {n : Nat} (hn : n < count t.s.c)
    (ho : (t.its j).ordered = true) :
    ((t.its j).pos = some (position t.s.c n) → ∃ t', IPerforms O heap (.postInc i j) t (.ok .unit) t' ∧ t'.s = t.s ∧
      t'.its i = ⟨true, some (position t.s.c n), none⟩ ∧ t'.its j = ⟨true, some (position t.s.c (n + 1)), none⟩) ∧
    ((t.its j).pos = some (position t.s.c (n + 1)) → ∃ t', IPerforms O heap (.postDec i j) t (.ok .unit) t' ∧ t'.s = t.s ∧
      t'.its i = ⟨true, some (position t.s.c (n + 1)), none⟩ ∧ t'.its j = ⟨true, some (position t.s.c n), none⟩) := by
  have key : ∀ {f : Nat → Impl.IM K V Unit} {t1 : ISt K V} {p q : Option Ptr}, (t.its j).pos = some p →
      Impl.ret (f j) (fun _ => (.unit : Res K V)) t = .ok .unit t1 → t1.s = t.s → t1.its j = ⟨true, some q, none⟩ →
      ∃ t', Impl.ret (Impl.postI f i j) (fun _ => (.unit : Res K V)) t = .ok .unit t' ∧ t'.s = t.s ∧
        t'.its i = ⟨true, some p, none⟩ ∧ t'.its j = ⟨true, some q, none⟩ := by
    intro f t1 p q hp h1 h2 h3
    obtain ⟨u, h4, -⟩ := ret_ok_inv h1
    refine ⟨⟨t1.s, fun k => if k = i then { t.its j with entry := none } else t1.its k⟩, ?_, h2, ?_, ?_⟩
    · unfold Impl.ret Impl.postI
      rw [bind_bind, bind_ok (m := Impl.getIt j) (s := t) rfl, bind_bind, bind_ok h4]
      rfl
    · dsimp only
      rw [if_pos rfl, ho, hp]
    · dsimp only
      rw [if_neg (Ne.symm hij), h3]
  obtain ⟨-, hw⟩ := C66_walking (i := j) hO h
  refine ⟨fun hp => ?_, fun hp => ?_⟩
  · obtain ⟨t1, h1, h2, h3⟩ := (hw n hn ho).1 hp
    exact key hp h1 h2 h3
  · obtain ⟨t1, h1, h2, h3⟩ := (hw n hn ho).2 hp
    exact key hp h1 h2 h3

/-! ### Unordered iterators -/

/-- C66: `unordered_begin()` and `++` lead an unordered iterator object through the elements of the hash table, one after the other. -/
theorem C66_unordered_walking (hO : NoListFault O) (h : IReachable O heap t) :
    (∃ t', IPerforms O heap (.begin i false) t (.ok .unit) t' ∧ t'.s = t.s ∧
      t'.its i = ⟨false, some ((t.s.c.map[0]?).map (·.addr)), none⟩) ∧
    ∀ (n : Nat) (x : MapNode K V), t.s.c.map[n]? = some x → (t.its i).ordered = false → (t.its i).pos = some (some x.addr) →
      ∃ t', IPerforms O heap (.inc i) t (.ok .unit) t' ∧ t'.s = t.s ∧
        t'.its i = ⟨false, some ((t.s.c.map[n + 1]?).map (·.addr)), none⟩ := by
  obtain ⟨⟨u, h1, h2⟩, hn⟩ := C35_unordered_walk hO (h.good hO).reach
  have setIt : ∀ it : It, Impl.setIt i it t = .ok () ⟨t.s, fun k => if k = i then it else t.its k⟩ := fun _ => rfl
  refine ⟨⟨⟨t.s, fun k => if k = i then ⟨false, some ((t.s.c.map[0]?).map (·.addr)), none⟩ else t.its k⟩, ?_, rfl, if_pos rfl⟩, fun n x hx ho hp => ?_⟩
  · show Impl.ret _ _ t = _
    unfold Impl.ret
    rw [bind_bind, bind_ok (m := Impl.onS Impl.uBegin) (a := u) (s' := t) (by unfold Impl.onS; rw [h1]), ← h2, bind_ok (setIt _)]
    rfl
  · obtain ⟨u, h3, h4⟩ := hn n x hx
    refine ⟨⟨t.s, fun k => if k = i then ⟨false, some ((t.s.c.map[n + 1]?).map (·.addr)), none⟩ else t.its k⟩, ?_, rfl, if_pos rfl⟩
    show Impl.ret _ _ t = _
    unfold Impl.ret Impl.incI
    rw [bind_bind, bind_ok (m := Impl.getIt i) (s := t) rfl, bind_bind,
      bind_ok (m := Impl.posOf (t.its i)) (s := t) (a := some x.addr) (s' := t) (by unfold Impl.posOf; rw [hp]; rfl), bind_bind,
      bind_ok (m := Impl.onS _) (a := u.pos) (s' := t)
        (by unfold Impl.onS; rw [ho, if_neg (by simp), bind_ok h3]; rfl), ho, ← h4, bind_ok (setIt _)]
    rfl

/-! ### Dereferencing, and iterators that denote nothing -/

/-- C66: dereferencing an iterator object that denotes an entry stores this entry and does nothing else. -/
theorem C66_deref (hO : NoListFault O) (h : IReachable O heap t) (hd : (t.its i).Denotes t.s.c x) (hl : (t.its i).Live t.s.c) :
    ∃ t', IPerforms O heap (.deref i) t (.ok .unit) t' ∧ t'.s = t.s ∧ t'.its i = { t.its i with entry := some x.addr } ∧
      ∀ k, k ≠ i → t'.its k = t.its k := by
  refine ⟨⟨t.s, lookedUp t i x⟩, ?_, rfl, if_pos rfl, fun k hk => if_neg hk⟩
  show Impl.ret (M.noexcept _) _ t = _
  unfold Impl.ret
  rw [bind_ok (noexcept_ok (materialise_reads hO (h.good hO).reach hd (h.entry hO hd hl)))]
  rfl

/-- C66: `entry()`, `key()`, `value()` and assigning to `value()` of an ordered iterator object past the end throw and change nothing,
even if the object has stored an entry. -/
theorem C66_past_the_end (ho : (t.its i).ordered = true) (he : (t.its i).AtEnd) {op : IOp K V} {v : V}
    (hop : op ∈ [.entry i, .key i, .value i, .setValue i v]) : IPerforms O heap op t (.error .invalidIterator) t := by
  have hp : Impl.posOf (t.its i) t = .ok none t := by
    unfold Impl.posOf
    rw [he]
    rfl
  have entry : Impl.entryOf O i t = .throw .invalidIterator t := by
    unfold Impl.entryOf
    rw [bind_ok (m := Impl.getIt i) (s := t) rfl, if_pos ho, bind_ok hp]
    rfl
  simp only [List.mem_cons, List.not_mem_nil, or_false] at hop
  rcases hop with rfl | rfl | rfl | rfl
  · show Impl.ret _ _ t = _
    unfold Impl.ret
    rw [bind_throw entry]
  · show Impl.ret _ _ t = _
    unfold Impl.ret Impl.keyI
    rw [bind_bind, bind_ok (m := Impl.getIt i) (s := t) rfl, if_pos ho, bind_bind, bind_ok hp]
    rfl
  · show Impl.ret _ _ t = _
    unfold Impl.ret Impl.valueI
    rw [bind_bind, bind_throw entry]
  · show Impl.ret _ _ t = _
    unfold Impl.ret Impl.setValueI
    rw [bind_bind, bind_throw entry]

/-- C66, as C38: unordered iterator objects past the end, and all that have no position (`Iterator i;`), must not be dereferenced
or moved on. -/
theorem C66_undefined (he : (t.its i).pos = none ∨ (t.its i).AtEnd ∧ (t.its i).ordered = false)
    (hn : (t.its i).entry = none) {op : IOp K V} {v : V}
    (hop : op ∈ [.deref i, .entry i, .key i, .value i, .setValue i v, .inc i]) : Impl.istep O heap op t = .ub := by
  have mat : Impl.materialise i t = .ub := by
    unfold Impl.materialise
    rw [bind_ok (m := Impl.getIt i) (s := t) rfl, hn]
    dsimp only
    rcases he with he | ⟨he, ho⟩
    · exact bind_ub (by unfold Impl.posOf; rw [he]; rfl)
    · rw [bind_ok (m := Impl.posOf (t.its i)) (s := t) (a := none) (s' := t) (by unfold Impl.posOf; rw [he]; rfl), ho]
      rfl
  have entry : Impl.entryOf O i t = .ub := by
    unfold Impl.entryOf
    rw [bind_ok (m := Impl.getIt i) (s := t) rfl]
    rcases he with he | ⟨he, ho⟩
    · split
      · exact bind_ub (by unfold Impl.posOf; rw [he]; rfl)
      · exact bind_ub mat
    · rw [ho, if_neg (by simp)]
      exact bind_ub mat
  simp only [List.mem_cons, List.not_mem_nil, or_false] at hop
  rcases hop with rfl | rfl | rfl | rfl | rfl | rfl
  · exact bind_ub (noexcept_ub mat)
  · exact bind_ub entry
  · show Impl.ret _ _ t = _
    unfold Impl.ret Impl.keyI
    rw [bind_bind, bind_ok (m := Impl.getIt i) (s := t) rfl]
    rcases he with he | ⟨he, ho⟩
    · split
      · rw [bind_bind]
        exact bind_ub (by unfold Impl.posOf; rw [he]; rfl)
      · rw [bind_bind]
        exact bind_ub entry
    · rw [ho, if_neg (by simp), bind_bind]
      exact bind_ub entry
  · show Impl.ret _ _ t = _
    unfold Impl.ret Impl.valueI
    rw [bind_bind]
    exact bind_ub entry
  · show Impl.ret _ _ t = _
    unfold Impl.ret Impl.setValueI
    rw [bind_bind]
    exact bind_ub entry
  · show Impl.ret _ _ t = _
    unfold Impl.ret Impl.incI
    rw [bind_bind, bind_ok (m := Impl.getIt i) (s := t) rfl, bind_bind]
    rcases he with he | ⟨he, ho⟩
    · exact bind_ub (by unfold Impl.posOf; rw [he]; rfl)
    · rw [bind_ok (m := Impl.posOf (t.its i)) (s := t) (a := none) (s' := t) (by unfold Impl.posOf; rw [he]; rfl), ho, bind_bind]
      exact bind_ub rfl

/-- On the cache with 2, 3, 1: an iterator is moved through the hash table, another one through the order; one is swapped, dereferenced
and written through; one ends past the end. -/
example : let t := idemo calmO true [.begin 0 true, .postInc 1 0, .begin 2 false, .inc 2, .postInc 3 2, .swap 0 1, .deref 0, .setValue 0 77,
      .fin 4 true] (demoState calmO demo3 0)
    ([0, 1, 2, 3].map fun i => (Impl.istep calmO true (.key i) t).result) = [some (.key 2), some (.key 3), some (.key 1), some (.key 2)] ∧
    ((Impl.istep calmO true (.value 0) t).result = some (.value 77)) ∧ (t.its 0).entry.isSome = true ∧
    ((elements t.s.c).map fun x => (x.key, x.info.value)) = [(2, 77), (3, 30), (1, 10)] ∧
    (match Impl.istep calmO true (.value 4) t with | .throw e _ => some e | _ => none) = some .invalidIterator := by
  refine ⟨?_, ?_, ?_, ?_, ?_⟩ <;> decide +kernel

end LRU
