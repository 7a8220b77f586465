import Verif.Proofs.Equal
import Verif.Props.Exceptions
import Verif.Proofs.Minds
/-!
# Programs with several caches: C01, C25, C26, C27, C28, C29

`Reach O ok w` with an arbitrary `ok`: the program may do anything, copying included.
-/

set_option linter.unusedSectionVars false
set_option autoImplicit false

namespace LRU

variable {K V : Type} [KeyEqual K] [DecidableEq K] [DecidableEq V] {O : Oracle K V}
  {w w' w'' : World K V} {ok : WOp K V → Prop} {i j k : Nat} {a b c : Cache K V} {res : Except Err (Res K V)}

/-! ### C01 -/

/-- C01. In every world any program can get into — whatever fails to be allocated or throws, copies included — the
number of stored entries does not exceed the capacity. -/
theorem C01_size_within_capacity (h : Reach O ok w) (hc : w.caches[i]? = some (some c)) {n : Nat}
    (hn : c.capacity = some n) : c.map.length ≤ n :=
  (((bound_ok (O := O)).reach h).each i c hc).cap n hn

/-- C01, for the results of the two calls. -/
theorem C01_size_call (h : Reach O ok w) (hc : w.caches[i]? = some (some c)) {m n : Nat} {s s' : St (Cache K V) K V}
    (h1 : Returns O .size (viewOf w i c) (.nat m) s) (h2 : Returns O .capacity (viewOf w i c) (.nat n) s') : m ≤ n := by
  obtain ⟨x, hx, e⟩ := ret_ok_inv h1
  obtain ⟨y, hy, e'⟩ := ret_ok_inv h2
  injection e with e
  injection e' with e'
  subst e e'
  have hm : c.map.length = m := by
    have hx' : (Out.ok c.map.length (viewOf w i c) : Out _ Nat) = .ok m s := hx
    injection hx'
  have hn : c.capacity = some n := by
    unfold Impl.readCapacity at hy
    cases hcap : c.capacity with
    | none =>
      rw [show (viewOf w i c).c.capacity = none from hcap] at hy
      cases hy
    | some z =>
      rw [show (viewOf w i c).c.capacity = some z from hcap] at hy
      injection hy with hy
      rw [hy]
  rw [← hm]
  exact C01_size_within_capacity h hc hn

/-- C01. A cache whose capacity has not been set (after a move) is empty. -/
theorem C01_unset_is_empty (h : Reach O ok w) (hc : w.caches[i]? = some (some c)) (hn : c.capacity = none) :
    c.map = [] :=
  (((bound_ok (O := O)).reach h).each i c hc).unset hn

/-- The result of a program, and what holds of it. -/
theorem exec_fact {β : Type} {ops : List (WOp K V)} {f : World K V → β} {y : β}
    (h : (exec O ops Impl.initWorld).map f = some y) :
    ∃ w, exec O ops Impl.initWorld = some w ∧ Reach O (fun _ => True) w ∧ f w = y := by
  cases he : exec O ops Impl.initWorld with
  | none => rw [he] at h; cases h
  | some w =>
    rw [he] at h
    injection h with h
    exact ⟨w, rfl, exec_reach he (fun _ _ => trivial) .init, h⟩

/-- What is stored in a cache, its capacity, and the number of nodes of `_map`. -/
structure Peek (K V : Type) where
  entries : List (K × V)
  capacity : Option Nat
  nodes : Nat
  deriving DecidableEq

/-- The content of cache `i`. -/
def peek (i : Nat) (w : World K V) : Option (Peek K V) :=
  match w.caches[i]? with
  | some (some c) => some ⟨entries c, c.capacity, c.map.length⟩
  | _ => none

-- the list node allocation fails during the insertion of a second key: `_map` holds a node that is not in `_order`; then
-- the cache is copied, and a third key is inserted into the copy
example : ((exec (faultyO .listNode 5) ([.create .basic (.sized 2), .op 0 (.insert 1 10), .op 0 (.insert 2 20), .copyCtor 0,
    .op 1 (.insert 3 30)] : List (WOp Nat Nat)) Impl.initWorld).map fun w => (peek 0 w, peek 1 w)) =
    some (some ⟨[(1, 10)], some 2, 2⟩, some ⟨[(3, 30)], some 2, 2⟩) := by decide +kernel

/-! ### C25 -/

/-- C25. `swap` exchanges the contents — the very same elements at the same iterator positions, capacity, time to live —
and leaves statistics and callbacks (`obs`), all other caches and the shared state alone. It does not throw. -/
theorem C25_swap_exchanges (ha : w.caches[i]? = some (some a)) (hb : w.caches[j]? = some (some b)) (hij : i ≠ j)
    (ht : Impl.sameType a.kind b.kind = true) (hp : WPerforms O (.swap i j) w res w') :
    res = .ok .unit ∧ w'.g = w.g ∧ (∀ k, k ≠ i → k ≠ j → w'.caches[k]? = w.caches[k]?) ∧
    ∃ a' b', w'.caches[i]? = some (some a') ∧ w'.caches[j]? = some (some b') ∧ SameContents b a' ∧ SameContents a b' ∧
      a'.obs = a.obs ∧ b'.obs = b.obs := by
  cases hp.effect with
  | swapped _ _ a1 b1 ha1 hb1 _ _ =>
    rw [ha] at ha1
    rw [hb] at hb1
    injection ha1 with ha1
    injection ha1 with ha1
    injection hb1 with hb1
    injection hb1 with hb1
    subst ha1 hb1
    refine ⟨rfl, rfl, fun k h1 h2 => ?_, { b with obs := a.obs }, { a with obs := b.obs }, ?_, ?_, ?_, ?_, rfl, rfl⟩
    · show ((w.caches.set i _).set j _)[k]? = _
      rw [set_get_ne h2, set_get_ne h1]
    · show ((w.caches.set i _).set j _)[i]? = _
      rw [set_get_ne hij]
      exact set_get ha
    · show ((w.caches.set i _).set j _)[j]? = _
      refine set_get (y := some b) ?_
      rw [set_get_ne (fun e => hij e.symm)]
      exact hb
    · exact ⟨rfl, fun _ _ => Iff.rfl, rfl, rfl⟩
    · exact ⟨rfl, fun _ _ => Iff.rfl, rfl, rfl⟩
  | swapNothing _ _ a1 b1 ha1 hb1 h =>
    rw [ha] at ha1
    rw [hb] at hb1
    injection ha1 with ha1
    injection ha1 with ha1
    injection hb1 with hb1
    injection hb1 with hb1
    subst ha1 hb1
    rcases h with h | h
    · exact absurd h hij
    · rw [ht] at h; cases h

theorem swap_eq (ha : w.caches[i]? = some (some a)) (hb : w.caches[j]? = some (some b)) (hij : i ≠ j)
    (ht : Impl.sameType a.kind b.kind = true) :
    Impl.wstep O (.swap i j) w =
      .ok .unit ⟨(w.caches.set i (some { b with obs := a.obs })).set j (some { a with obs := b.obs }), w.g⟩ := by
  have get : ∀ {i : Nat} {c : Cache K V}, w.caches[i]? = some (some c) → Impl.getCache i w = .ok c w := by
    intro i c h
    unfold Impl.getCache
    rw [h]
  show Impl.ret (Impl.swap i j) _ w = _
  unfold Impl.swap
  refine ret_ok (a := ()) ?_
  rw [bind_ok (get ha), bind_ok (get hb), if_neg (by simp [hij, ht])]
  rfl

theorem baseSwap_eq (ha : w.caches[i]? = some (some a)) (hb : w.caches[j]? = some (some b)) (hij : i ≠ j)
    (ht : Impl.sameBase a.kind b.kind = true) :
    Impl.wstep O (.swapBase i j) w =
      .ok .unit ⟨(w.caches.set i (some { b with obs := a.obs, kind := a.kind })).set j
        (some { a with obs := b.obs, kind := b.kind }), w.g⟩ := by
  have get : ∀ {i : Nat} {c : Cache K V}, w.caches[i]? = some (some c) → Impl.getCache i w = .ok c w := by
    intro i c h
    unfold Impl.getCache
    rw [h]
  show Impl.ret (Impl.swapThroughBase i j) _ w = _
  unfold Impl.swapThroughBase
  refine ret_ok (a := ()) ?_
  rw [bind_ok (get ha), bind_ok (get hb), if_neg (by simp [hij, ht])]
  rfl

theorem baseSwap_self (ha : w.caches[i]? = some (some a)) : Impl.wstep O (.swapBase i i) w = .ok .unit w := by
  show Impl.ret (Impl.swapThroughBase i i) _ w = _
  unfold Impl.swapThroughBase
  have get : Impl.getCache i w = .ok a w := by unfold Impl.getCache; rw [ha]
  refine ret_ok (a := ()) ?_
  rw [bind_ok get, bind_ok get, if_pos (by simp)]
  rfl

theorem sameType_symm {k k' : Kind} (h : Impl.sameType k k' = true) : Impl.sameType k' k = true := by
  unfold Impl.sameType at h ⊢
  cases k <;> cases k' <;> simp_all

/-- C25. `swap` always completes, and swapping again restores the world exactly. -/
theorem C25_swap_twice_restores (ha : w.caches[i]? = some (some a)) (hb : w.caches[j]? = some (some b)) (hij : i ≠ j)
    (ht : Impl.sameType a.kind b.kind = true) :
    ∃ w', Impl.wstep O (.swap i j) w = .ok .unit w' ∧ Impl.wstep O (.swap i j) w' = .ok .unit w := by
  refine ⟨_, swap_eq ha hb hij ht, ?_⟩
  have ha' : ((w.caches.set i (some { b with obs := a.obs })).set j (some { a with obs := b.obs }))[i]? =
      some (some { b with obs := a.obs }) := by
    rw [set_get_ne hij]
    exact set_get ha
  have hb' : ((w.caches.set i (some { b with obs := a.obs })).set j (some { a with obs := b.obs }))[j]? =
      some (some { a with obs := b.obs }) := by
    refine set_get (y := some b) ?_
    rw [set_get_ne (fun e => hij e.symm)]
    exact hb
  have := swap_eq (O := O) (w := ⟨(w.caches.set i (some { b with obs := a.obs })).set j (some { a with obs := b.obs }), w.g⟩)
    ha' hb' hij (sameType_symm ht)
  rw [this]
  congr 1
  have e : (((w.caches.set i (some { b with obs := a.obs })).set j (some { a with obs := b.obs })).set i (some a)).set j
      (some b) = w.caches := by
    apply List.ext_getElem?
    intro n
    by_cases h1 : n = j
    · subst h1
      rw [hb]
      refine set_get (y := some { a with obs := b.obs }) ?_
      rw [set_get_ne (fun e => hij e.symm)]
      exact hb'
    · rw [set_get_ne h1]
      by_cases h2 : n = i
      · subst h2
        rw [ha]
        exact set_get ha'
      · rw [set_get_ne h2, set_get_ne h1, set_get_ne h2]
  exact congrArg (fun l => (⟨l, w.g⟩ : World K V)) e

/-- C25. Swapping a cache with itself does nothing. -/
theorem C25_self_swap (ha : w.caches[i]? = some (some a)) : Impl.wstep O (.swap i i) w = .ok .unit w := by
  show Impl.ret (Impl.swap i i) _ w = _
  unfold Impl.swap
  have get : Impl.getCache i w = .ok a w := by unfold Impl.getCache; rw [ha]
  refine ret_ok (a := ()) ?_
  rw [bind_ok get, bind_ok get, if_pos (by simp)]
  rfl

theorem Prog.wperforms {own : Nat → Bool} {wop : WOp K V} (h : Prog O w own) (hp : WPerforms O wop w res w') :
    Prog O w' (ownAfter w own wop) := by
  cases res with
  | ok r => exact .step wop h hp
  | error e => exact .throw wop h hp

theorem ownAfter_swap {own : Nat → Bool} (ha : w.caches[i]? = some (some a)) (hb : w.caches[j]? = some (some b))
    (ht : Impl.sameType a.kind b.kind = true) : ownAfter w own (.swap i j) = mark (mark own i (own j)) j (own i) := by
  simp only [ownAfter]
  rw [ha, hb]
  exact if_pos ht

/-- C25. Both caches remain valid: they are reachable caches, to which all theorems about reachable caches apply. -/
theorem C25_swapped_caches_are_valid {own : Nat → Bool} (hw : Prog O w own) (hi : own i = true) (hj : own j = true)
    (ha : w.caches[i]? = some (some a)) (hb : w.caches[j]? = some (some b)) (ht : Impl.sameType a.kind b.kind = true)
    (hp : WPerforms O (.swap i j) w res w') (hk : k = i ∨ k = j) (hc : w'.caches[k]? = some (some c)) :
    Reachable O (viewOf w' k c) := by
  refine ⟨w', _, k, c, hw.wperforms hp, ?_, hc, rfl⟩
  rw [ownAfter_swap ha hb ht]
  unfold mark
  rcases hk with rfl | rfl <;> (split <;> simp_all)

/-- Two caches: one with 1, 2, 3 (capacity 3), one with 2 and 5 (capacity 2). -/
def demoTwo : List (WOp Nat Nat) :=
  demo3 ++ [.create .basic (.sized 2), .op 1 (.insert 2 99), .op 1 (.insert 5 50)]

example : ((exec calmO (demoTwo ++ [.swap 0 1]) Impl.initWorld).map fun w => (peek 0 w, peek 1 w)) =
    some (some ⟨[(2, 99), (5, 50)], some 2, 2⟩, some ⟨[(2, 20), (3, 30), (1, 10)], some 3, 3⟩) := by decide +kernel

/-- C25. References and unordered iterators are node addresses: what they denote is still there, with key and value, in
the other cache object. -/
theorem C25_references_survive (ha : w.caches[i]? = some (some a)) (hb : w.caches[j]? = some (some b)) (hij : i ≠ j)
    (ht : Impl.sameType a.kind b.kind = true) (hp : WPerforms O (.swap i j) w res w') {x : MapNode K V}
    (hx : x ∈ elements a) : ∃ b', w'.caches[j]? = some (some b') ∧ x ∈ elements b' ∧ ∀ q, At a q x → At b' q x := by
  obtain ⟨-, -, -, a', b', -, h2, -, h4, -, -⟩ := C25_swap_exchanges ha hb hij ht hp
  exact ⟨b', h2, by rw [h4.elements]; exact hx, fun q hq => (h4.positions q x).2 hq⟩

theorem valueVia_eq {s t : St (Cache K V) K V} {x y : St (MCache K V) K V} (hx : Rel s x) (hox : Ok x) (hy : Rel t y)
    {q : Ptr} {n : MapNode K V} (h : At s.c q n) :
    Impl.valueVia s.c t.c q = (entryFor t.c n.key).map (·.info.value) := by
  obtain ⟨e, he, rfl, rfl, -⟩ := hx.ent_at hox h
  unfold Impl.valueVia
  have h1 : s.c.order.find? (fun l => l.addr == e.slot) = some e.lnode := by
    rw [hx.rep.order, find?_map_eq]
    exact congrArg (Option.map _) (hox.findSlot he)
  have h2 : s.c.map.find? (fun n => n.addr == e.lnode.ref) = some e.node := by
    rw [hx.rep.find_addr hx.awf, show e.lnode.ref = e.id from rfl, find?_key hx.awf.ids he]
    rfl
  rw [h1]
  simp only [h2]
  rw [hy.rep.find_key hy.awf, hy.entryFor]

/-- As long as nothing is swapped or moved, an ordered iterator of a plain cache yields the value of its element. -/
theorem C25_ordered_iterators_before (hO : NoListFault O) {own : Nat → Bool} (hw : Prog O w own) (hi : own i = true)
    (ha : w.caches[i]? = some (some a)) {q : Ptr} {x : MapNode K V} (hx : At a q x) :
    Impl.valueVia a a q = some x.info.value := by
  obtain ⟨t, hr, ht⟩ := hw.view hO hi ha
  refine (valueVia_eq (s := viewOf w i a) (t := viewOf w i a) hr ht hr hx).trans ?_
  obtain ⟨e, he, rfl, hf⟩ := hr.ent_of_mem ht hx.1
  have h1 := hr.entryFor e.node.key
  have hf' : t.c.ents.find? (fun y => keq y.key e.node.key) = some e := hf
  rw [hf'] at h1
  rw [h1]
  rfl

/-- C25, ordered iterators. An ordered iterator into cache `i` keeps pointing to the cache object `i` while its position
now belongs to cache `j`: it yields the value that the *other* cache stores for its key, and its use is undefined if
there is none. -/
theorem C25_ordered_iterators_read_the_other_cache (hO : NoListFault O) {own : Nat → Bool} (hw : Prog O w own)
    (hi : own i = true) (ha : w.caches[i]? = some (some a)) (hb : w.caches[j]? = some (some b)) (hij : i ≠ j)
    (ht : Impl.sameType a.kind b.kind = true) (hp : WPerforms O (.swap i j) w res w') {a' b' : Cache K V}
    (ha' : w'.caches[i]? = some (some a')) (hb' : w'.caches[j]? = some (some b')) {q : Ptr} {x : MapNode K V}
    (hx : At a q x) : Impl.valueVia b' a' q = (entryFor b x.key).map (·.info.value) := by
  obtain ⟨-, -, -, a1, b1, h1, h2, h3, h4, -, -⟩ := C25_swap_exchanges ha hb hij ht hp
  rw [ha'] at h1
  rw [hb'] at h2
  injection h1 with h1
  injection h1 with h1
  injection h2 with h2
  injection h2 with h2
  subst h1 h2
  have hw' := hw.wperforms hp
  rw [ownAfter_swap ha hb ht] at hw'
  obtain ⟨s, hs, hos⟩ := hw'.view hO (by rw [mark_eq]; exact hi) hb'
  obtain ⟨t, ht⟩ := (trivial_own.prog hO hw').pair.rel ha'
  refine (valueVia_eq (s := viewOf w' j b') (t := viewOf w' i a') hs hos ht ((h4.positions q x).2 hx)).trans ?_
  show (entryFor a' x.key).map _ = _
  unfold entryFor
  rw [h3.elements]

/-- The refuted part of C25: ordered iterators stay usable. In the example the iterator to key 1 of the first cache
dereferences the end iterator of the map of the second one. -/
theorem C25_ordered_iterators_do_not_survive : ¬ ∀ (O : Oracle Nat Nat) (w w' : World Nat Nat) (i j : Nat)
    (a a' b' : Cache Nat Nat) (q : Ptr) (x : MapNode Nat Nat),
    Calm O → Steady O → Prog O w (fun _ => true) → w.caches[i]? = some (some a) → a.kind = .basic → At a q x →
    WPerforms O (.swap i j) w (.ok .unit) w' → w'.caches[i]? = some (some a') → w'.caches[j]? = some (some b') →
    Impl.valueVia b' a' q ≠ none := by
  intro hall
  have hf : ((exec calmO demoTwo Impl.initWorld).map fun w => match w.caches[0]?, w.caches[1]? with
      | some (some a), some (some b) => decide (a.kind = .basic ∧ b.kind = .basic ∧
          ∃ x ∈ elements a, ⟨1, x.addr⟩ ∈ a.order ∧
            (Impl.valueVia { a with obs := b.obs } { b with obs := a.obs } 1).isNone = true)
      | _, _ => false) = some true := by decide +kernel
  obtain ⟨w, he, -, hw⟩ := exec_fact hf
  have hr : Reach calmO (fun op => op.copies = false) w :=
    exec_reach he (by intro op hop; revert op hop; decide) .init
  have hr := hr.prog
  split at hw
  · next a b ha hb =>
    obtain ⟨h1, h2, x, h3, h4, h5⟩ := of_decide_eq_true hw
    have ht : Impl.sameType a.kind b.kind = true := by rw [h1, h2]; rfl
    refine hall calmO w _ 0 1 a { b with obs := a.obs } { a with obs := b.obs } 1 x calmO_calm calmO_steady hr ha h1
      ⟨h3, h4⟩ (swap_eq ha hb (by decide) ht) ?_ ?_ (by simpa using h5)
    · show ((w.caches.set 0 _).set 1 _)[0]? = _
      rw [set_get_ne (by decide)]
      exact set_get ha
    · show ((w.caches.set 0 _).set 1 _)[1]? = _
      refine set_get (y := some b) ?_
      rw [set_get_ne (by decide)]
      exact hb
  · cases hw

/-! ### C26 -/

/-- C26, move construction. The new cache (the last one) holds what the source held; the source is empty; nothing else
changes. What is missing for the full statement: the capacity of the source is indeterminate afterwards, so that calls
which read it have undefined behaviour (`C26_moved_from_calls`). -/
theorem C26_move_construction_partial (hb : w.caches[i]? = some (some b)) (hp : WPerforms O (.moveCtor i) w res w') :
    res = .ok .unit ∧ w'.g = w.g ∧ w'.caches.length = w.caches.length + 1 ∧
    (∀ k, k ≠ i → k < w.caches.length → w'.caches[k]? = w.caches[k]?) ∧
    ∃ c b', w'.caches[w.caches.length]? = some (some c) ∧ w'.caches[i]? = some (some b') ∧ SameContents b c ∧
      c.obs = {} ∧ b'.map = [] ∧ elements b' = [] ∧ b'.capacity = none ∧ b'.kind = b.kind ∧ b'.obs = b.obs := by
  cases hp.effect with
  | moved _ b1 hb1 =>
    rw [hb] at hb1
    injection hb1 with hb1
    injection hb1 with hb1
    subst hb1
    have hlt : i < w.caches.length := (List.getElem?_eq_some_iff.1 hb).1
    refine ⟨rfl, rfl, by simp, fun k h1 h2 => ?_, { b with obs := {} },
      { b with map := [], order := [], last := none, capacity := none }, ?_, ?_, ?_, rfl, rfl, rfl, rfl, rfl, rfl⟩
    · show (w.caches.set i _ ++ _)[k]? = _
      rw [List.getElem?_append_left (by simpa using h2), set_get_ne h1]
    · show (w.caches.set i _ ++ _)[w.caches.length]? = _
      rw [List.getElem?_append_right (by simp)]
      simp
    · show (w.caches.set i _ ++ _)[i]? = _
      rw [List.getElem?_append_left (by simpa using hlt)]
      exact set_get hb
    · exact ⟨rfl, fun _ _ => Iff.rfl, rfl, rfl⟩

/-- C26. Exactly which calls on a moved-from cache are defined: those whose preconditions do not mention the capacity
(`Safe`); `front` and `back` terminate the program as on every empty cache. -/
theorem C26_moved_from_calls (hO : NoListFault O) {own : Nat → Bool} (hw : Prog O w own)
    (hb : w.caches[i]? = some (some b)) (hp : WPerforms O (.moveCtor i) w res w') {b' : Cache K V}
    (hb' : w'.caches[i]? = some (some b')) (op : Op K V) :
    (Impl.step O op (viewOf w' i b') = .ub ↔ ¬ Safe b' op) ∧
    (op = .capacity ∨ op = .isFull ∨ op = .spaceLeft ∨ (∃ k v, op = .insert k v ∨ op = .emplace k v) ∨
      (∃ l, op = .assignRange l ∨ op = .assignRangeMove l) → Impl.step O op (viewOf w' i b') = .ub) ∧
    (op = .size ∨ op = .isEmpty ∨ op = .clear ∨ (∃ n, op = .setCapacity n ∨ op = .shrink n) ∨
      (∃ k, op = .contains k ∨ op = .find k ∨ op = .lookup k ∨ op = .erase k) ∨ op = .oBegin →
        Completes (Impl.step O op (viewOf w' i b'))) := by
  have hr : Reachable O (viewOf w' i b') := by
    refine ⟨w', _, i, b', hw.wperforms hp, ?_, hb', rfl⟩
    have hlt : i < w.caches.length := (List.getElem?_eq_some_iff.1 hb).1
    show mark (mark own i true) w.caches.length (own i) i = true
    rw [mark_ne (Nat.ne_of_lt hlt), mark_eq]
  obtain ⟨-, -, -, -, c, b1, -, h2, -, -, -, -, hcap, -, -⟩ := C26_move_construction_partial hb hp
  rw [hb'] at h2
  injection h2 with h2
  injection h2 with h2
  subst h2
  have h1 := C33_preconditions_are_exact (op := op) hO hr
  refine ⟨h1.1, fun h => h1.1.2 ?_, fun h => C33_calls_complete hO hr ?_ ?_⟩
  · have hc : (viewOf w' i b').c.capacity = none := hcap
    rcases h with rfl | rfl | rfl | ⟨k, v, rfl | rfl⟩ | ⟨l, rfl | rfl⟩ <;> (unfold Safe; simp [hc])
  · rcases h with rfl | rfl | rfl | ⟨n, rfl | rfl⟩ | ⟨k, rfl | rfl | rfl | rfl⟩ | rfl <;> (unfold Safe; trivial)
  · rcases h with rfl | rfl | rfl | ⟨n, rfl | rfl⟩ | ⟨k, rfl | rfl | rfl | rfl⟩ | rfl <;> (unfold Terminates; simp)

/-- C26. Setting the capacity makes a moved-from cache fully usable again: it is then an empty cache of that capacity. -/
theorem C26_moved_from_can_be_revived (hO : NoListFault O) {own : Nat → Bool} (hw : Prog O w own)
    (hb : w.caches[i]? = some (some b)) (hp : WPerforms O (.moveCtor i) w res w') {b' : Cache K V}
    (hb' : w'.caches[i]? = some (some b')) (n : Nat) :
    ∃ s', Returns O (.setCapacity n) (viewOf w' i b') .unit s' ∧ Reachable O s' ∧ elements s'.c = [] ∧
      s'.c.capacity = some n ∧ s'.c.kind = b.kind ∧ s'.c.obs = b.obs := by
  have hr : Reachable O (viewOf w' i b') := by
    refine ⟨w', _, i, b', hw.wperforms hp, ?_, hb', rfl⟩
    have hlt : i < w.caches.length := (List.getElem?_eq_some_iff.1 hb).1
    show mark (mark own i true) w.caches.length (own i) i = true
    rw [mark_ne (Nat.ne_of_lt hlt), mark_eq]
  obtain ⟨-, -, -, -, c, b1, -, h2, -, -, -, hel, hcap, hk, ho⟩ := C26_move_construction_partial hb hp
  rw [hb'] at h2
  injection h2 with h2
  injection h2 with h2
  subst h2
  obtain ⟨t, h1, ht⟩ := hr.rel hO
  have h3 : t.c.ents = [] := by
    have := h1.elements
    rw [show LRU.elements (viewOf w' i b').c = [] from hel] at this
    exact (List.map_eq_nil_iff.1 this.symm)
  have h4 := setCapacity_eq ht n
  obtain ⟨s', h5, h6⟩ := h1.back_ok hO (op := .setCapacity n) (r := .unit) (ret_ok h4)
  refine ⟨s', h5, hr.after hO h5, ?_, ?_, ?_, ?_⟩
  · rw [h6.elements]
    simp [MCache.prune, h3]
  · rw [h6.rep.cap]
  · rw [h6.rep.kind]
    refine Eq.trans ?_ hk
    exact h1.rep.kind.symm
  · rw [h6.rep.obs]
    refine Eq.trans ?_ ho
    exact h1.rep.obs.symm

/-- C26. What was moved into the new cache is as usable as it was in the old one. -/
theorem C26_target_is_valid {own : Nat → Bool} (hw : Prog O w own) (hi : own i = true)
    (hp : WPerforms O (.moveCtor i) w res w') {c : Cache K V} (hc : w'.caches[w.caches.length]? = some (some c)) :
    Reachable O (viewOf w' w.caches.length c) := by
  refine ⟨w', _, _, c, hw.wperforms hp, ?_, hc, rfl⟩
  show mark (mark own i true) w.caches.length (own i) w.caches.length = true
  rw [mark_eq, hi]

theorem moveCtor_eq (hb : w.caches[i]? = some (some b)) :
    Impl.wstep O (.moveCtor i) w = .ok .unit
      ⟨w.caches.set i (some { b with map := [], order := [], last := none, capacity := none }) ++
          [some { b with obs := {} }], w.g⟩ := by
  have get : Impl.getCache i w = .ok b w := by
    unfold Impl.getCache
    rw [hb]
  show Impl.ret (Impl.moveCtor i) _ w = _
  unfold Impl.moveCtor
  refine ret_ok (a := ()) ?_
  rw [bind_ok get]
  rfl

theorem moveAssign_eq (ha : w.caches[i]? = some (some a)) (hb : w.caches[j]? = some (some b)) (hij : i ≠ j)
    (ht : Impl.sameType a.kind b.kind = true) :
    Impl.wstep O (.moveAssign i j) w =
      .ok .unit ⟨(w.caches.set i (some { b with obs := a.obs })).set j (some { a with obs := b.obs, kind := b.kind }),
        w.g⟩ := by
  have get : ∀ {i : Nat} {c : Cache K V}, w.caches[i]? = some (some c) → Impl.getCache i w = .ok c w := by
    intro i c h
    unfold Impl.getCache
    rw [h]
  show Impl.ret (Impl.moveAssign i j) _ w = _
  unfold Impl.moveAssign
  refine ret_ok (a := ()) ?_
  rw [bind_ok (get ha), bind_ok (get hb), if_neg (by simp [hij, ht])]
  rfl

/-- C26. Move assignment: the target has the elements, order, values, capacity (and time to live) of the source. The
source is not empty but holds what the target held (with the time to live it had before). -/
theorem C26_move_assignment_exchanges (ha : w.caches[i]? = some (some a)) (hb : w.caches[j]? = some (some b))
    (hij : i ≠ j) (ht : Impl.sameType a.kind b.kind = true) (hp : WPerforms O (.moveAssign i j) w res w') :
    res = .ok .unit ∧ w'.g = w.g ∧ (∀ k, k ≠ i → k ≠ j → w'.caches[k]? = w.caches[k]?) ∧
    ∃ a' b', w'.caches[i]? = some (some a') ∧ w'.caches[j]? = some (some b') ∧ SameContents b a' ∧ a'.obs = a.obs ∧
      elements b' = elements a ∧ b'.capacity = a.capacity ∧ b'.kind = b.kind ∧ b'.obs = b.obs := by
  have h1 := moveAssign_eq (O := O) ha hb hij ht
  have h2 : res = .ok .unit ∧ w' = ⟨(w.caches.set i (some { b with obs := a.obs })).set j
      (some { a with obs := b.obs, kind := b.kind }), w.g⟩ := by
    cases res with
    | ok r =>
      unfold WPerforms at hp
      simp only at hp
      rw [h1] at hp
      injection hp with h3 h4
      exact ⟨by rw [h3], h4.symm⟩
    | error e =>
      unfold WPerforms at hp
      simp only at hp
      rw [h1] at hp
      cases hp
  obtain ⟨rfl, rfl⟩ := h2
  refine ⟨rfl, rfl, fun k h3 h4 => ?_, { b with obs := a.obs }, { a with obs := b.obs, kind := b.kind }, ?_, ?_,
    ⟨rfl, fun _ _ => Iff.rfl, rfl, rfl⟩, rfl, rfl, rfl, rfl, rfl⟩
  · show ((w.caches.set i _).set j _)[k]? = _
    rw [set_get_ne h4, set_get_ne h3]
  · show ((w.caches.set i _).set j _)[i]? = _
    rw [set_get_ne hij]
    exact set_get ha
  · show ((w.caches.set i _).set j _)[j]? = _
    refine set_get (y := some b) ?_
    rw [set_get_ne (fun e => hij e.symm)]
    exact hb

/-- C26 is false of the code: after move construction the source's capacity is indeterminate, and reading it (which
`capacity()`, `insert` and others do) is undefined behaviour. -/
theorem C26_moved_from_is_not_valid : ¬ ∀ (O : Oracle Nat Nat) (w w' : World Nat Nat) (i : Nat) (b' : Cache Nat Nat),
    Calm O → Steady O → Prog O w (fun _ => true) → WPerforms O (.moveCtor i) w (.ok .unit) w' →
    w'.caches[i]? = some (some b') → Impl.step O .capacity (viewOf w' i b') ≠ .ub := by
  intro hall
  have hf : ((exec calmO demo3 Impl.initWorld).map fun w => match w.caches[0]? with
      | some (some _) => true
      | _ => false) = some true := by decide +kernel
  obtain ⟨w, he, -, hw⟩ := exec_fact hf
  have hr : Reach calmO (fun op => op.copies = false) w :=
    exec_reach he (by intro op hop; revert op hop; decide) .init
  split at hw
  · next b hb =>
    have hp : WPerforms calmO (.moveCtor 0) w (.ok .unit) _ := moveCtor_eq hb
    obtain ⟨-, -, -, -, c, b', -, h2, -⟩ := C26_move_construction_partial hb hp
    exact hall calmO w _ 0 b' calmO_calm calmO_steady hr.prog hp h2
      ((C26_moved_from_calls calmO_calm.noListFault hr.prog hb hp h2 .capacity).2.1 (.inl rfl))
  · cases hw

/-- C26 is false of the code: the source of a move assignment is not empty. -/
theorem C26_move_assignment_does_not_empty :
    ¬ ∀ (O : Oracle Nat Nat) (w w' : World Nat Nat) (i j : Nat) (b' : Cache Nat Nat),
    Calm O → Steady O → Prog O w (fun _ => true) → i ≠ j → WPerforms O (.moveAssign i j) w (.ok .unit) w' →
    w'.caches[j]? = some (some b') → elements b' = [] := by
  intro hall
  have hf : ((exec calmO demoTwo Impl.initWorld).map fun w => match w.caches[0]?, w.caches[1]? with
      | some (some a), some (some b) => decide (a.kind = .basic ∧ b.kind = .basic ∧ (elements a).length = 3)
      | _, _ => false) = some true := by decide +kernel
  obtain ⟨w, he, -, hw⟩ := exec_fact hf
  have hr : Reach calmO (fun op => op.copies = false) w :=
    exec_reach he (by intro op hop; revert op hop; decide) .init
  split at hw
  · next a b ha hb =>
    obtain ⟨h1, h2, h3⟩ := of_decide_eq_true hw
    have ht : Impl.sameType a.kind b.kind = true := by rw [h1, h2]; rfl
    have hp : WPerforms calmO (.moveAssign 0 1) w (.ok .unit) _ := moveAssign_eq ha hb (by decide) ht
    obtain ⟨-, -, -, a', b', -, h5, -, -, h6, -⟩ := C26_move_assignment_exchanges ha hb (by decide) ht hp
    have := hall calmO w _ 0 1 b' calmO_calm calmO_steady hr.prog (by decide) hp h5
    rw [h6] at this
    rw [this] at h3
    cases h3
  · cases hw

/-- A concrete move construction and a move assignment. -/
example : ((exec calmO (demo3 ++ [.moveCtor 0]) Impl.initWorld).map fun w => (peek 0 w, peek 1 w)) =
    some (some ⟨[], none, 0⟩, some ⟨[(2, 20), (3, 30), (1, 10)], some 3, 3⟩) := by decide +kernel

example : ((exec calmO (demo3 ++ [.moveCtor 0, .op 0 (.setCapacity 2), .op 0 (.insert 7 70)]) Impl.initWorld).map
    fun w => (peek 0 w, peek 1 w)) =
    some (some ⟨[(7, 70)], some 2, 1⟩, some ⟨[(2, 20), (3, 30), (1, 10)], some 3, 3⟩) := by decide +kernel

example : ((exec calmO (demoTwo ++ [.moveAssign 0 1]) Impl.initWorld).map fun w => (peek 0 w, peek 1 w)) =
    some (some ⟨[(2, 99), (5, 50)], some 2, 2⟩, some ⟨[(2, 20), (3, 30), (1, 10)], some 3, 3⟩) := by decide +kernel

end LRU
