import Verif.Proofs.Functors
/-!
# C88: hash functions and comparators follow the elements
-/

set_option autoImplicit false
set_option linter.unusedSectionVars false

namespace LRU

variable {H E : Type} [Inhabited H] [Inhabited E]

/-- C88. In every program, every cache looks for its elements with the functions they were stored with, whichever of its
two comparators is used, and these are what `hash_function()` and `key_equal()` return. -/
theorem C88_finds (ps : List (FStep H E)) (w : List (Option (Functors H E))) (hw : FReach ps w) (i : Nat)
    (c : Functors H E) (hc : w[i]? = some (some c)) : c.Finds := by
  have h0 : AllF (Functors.Finds (H := H) (E := E)) [] := by intro d hd; cases hd
  refine AllF.get (FStep.runAll_keeps h0 hw ?_ ?_ ?_) hc
  · intro hash eq n _; exact Functors.create_finds _ _ _
  · intro _; exact ⟨fun x hx => (nomatch hx), rfl⟩
  · intro d keep add hd; exact Functors.use_finds hd keep add

/-- C88. Swapping and move assignment exchange the functions of two caches together with their elements, and leave those
of all others. -/
theorem C88_swap (w w' : List (Option (Functors H E))) (i j : Nat) (hij : i ≠ j) (a b : Functors H E)
    (ha : w[i]? = some (some a)) (hb : w[j]? = some (some b)) (p : FStep H E) (hp : p = .swap i j ∨ p = .moveAssign i j)
    (h : p.run w = some w') :
    w'[i]? = some (some b) ∧ w'[j]? = some (some a) ∧ ∀ k, k ≠ i → k ≠ j → w'[k]? = w[k]? := by
  have hw' : w' = (w.set i (some b)).set j (some a) := by
    rcases hp with rfl | rfl <;> · simp only [FStep.run, ha, hb, if_neg hij] at h; injection h with h; exact h.symm
  have hi : i < w.length := (List.getElem?_eq_some_iff.1 ha).1
  have hj : j < w.length := (List.getElem?_eq_some_iff.1 hb).1
  subst hw'
  refine ⟨?_, ?_, ?_⟩
  · rw [List.getElem?_set_ne (Ne.symm hij), List.getElem?_set_self hi]
  · rw [List.getElem?_set_self (by rw [List.length_set]; exact hj)]
  · intro k h1 h2
    rw [List.getElem?_set_ne (Ne.symm h2), List.getElem?_set_ne (Ne.symm h1)]

/-- C88. A copy has the functions of its source, and a copy assigned to takes them over. -/
theorem C88_copy (w : List (Option (Functors H E))) (i j : Nat) (hij : i ≠ j) (a b : Functors H E)
    (ha : w[i]? = some (some a)) (hb : w[j]? = some (some b)) :
    (FStep.copyCtor j).run w = some (w ++ [some b]) ∧ (FStep.copyAssign i j).run w = some (w.set i (some b)) := by
  simp only [FStep.run, ha, hb, if_neg hij]
  exact ⟨rfl, rfl⟩

/-- C88. Constructors that take function objects, and only they, make a cache with these; it finds all that is inserted, and
the other caches stay as they are. -/
theorem C88_construction (w w' : List (Option (Functors H E))) (hash : H) (eq : E) (n : Nat)
    (h : (FStep.create hash eq n).run w = some w') :
    w'.length = w.length + 1 ∧ (∀ k, k < w.length → w'[k]? = w[k]?) ∧
    ∃ d, w'[w.length]? = some (some d) ∧ d.hashFunction = hash ∧ d.keyEqual = eq ∧ d.lastEq = eq ∧ d.items.length = n := by
  simp only [FStep.run] at h
  injection h with h
  subst h
  refine ⟨by simp, fun k hk => List.getElem?_append_left hk, Functors.create hash eq n, ?_, rfl, rfl, rfl, ?_⟩
  · rw [List.getElem?_append_right (Nat.le_refl _), Nat.sub_self]; rfl
  · exact List.length_replicate

/-- C88. Calls that insert and erase, and assignment of ranges and of caches of other types, keep the functions; new elements
are put into place with these, elements that stay stay where they are, and other caches are not affected. -/
theorem C88_calls_keep (w w' : List (Option (Functors H E))) (i keep add : Nat) (c : Functors H E)
    (hc : w[i]? = some (some c)) (h : (FStep.use i keep add).run w = some w') :
    (∀ k, k ≠ i → w'[k]? = w[k]?) ∧
    ∃ d, w'[i]? = some (some d) ∧ d.hashFunction = c.hashFunction ∧ d.keyEqual = c.keyEqual ∧ d.lastEq = c.lastEq ∧
      d.items.length = min keep c.items.length + add ∧
      (∀ m, m < keep → m < c.items.length → d.items[m]? = c.items[m]?) ∧
      ∀ m x, min keep c.items.length ≤ m → d.items[m]? = some x → x = (c.hashFunction, c.keyEqual) := by
  simp only [FStep.run, hc] at h
  injection h with h
  subst h
  refine ⟨fun k hk => List.getElem?_set_ne (Ne.symm hk), _, List.getElem?_set_self (List.getElem?_eq_some_iff.1 hc).1, rfl, rfl,
    rfl, ?_, ?_, ?_⟩
  · show (c.items.take keep ++ List.replicate add (c.hash, c.eq)).length = _
    rw [List.length_append, List.length_take, List.length_replicate]
  · intro m h1 h2
    show (c.items.take keep ++ List.replicate add (c.hash, c.eq))[m]? = _
    rw [List.getElem?_append_left (by rw [List.length_take]; omega), List.getElem?_take_of_lt h1]
  · intro m x h1 h2
    change (c.items.take keep ++ List.replicate add (c.hash, c.eq))[m]? = _ at h2
    rw [List.getElem?_append_right (by rw [List.length_take]; omega), List.getElem?_replicate] at h2
    split at h2
    · injection h2 with h2; exact h2.symm
    · cases h2

/-- C88. Destruction affects no other cache, and swapping a cache with itself or assigning it to itself nothing at all. -/
theorem C88_others_unaffected (w w' : List (Option (Functors H E))) (i : Nat) :
    ((FStep.destroy i).run w = some w' → w'[i]? = some none ∧ ∀ k, k ≠ i → w'[k]? = w[k]?) ∧
    ∀ p : FStep H E, p = .swap i i ∨ p = .moveAssign i i ∨ p = .copyAssign i i → p.run w = some w' → w' = w := by
  refine ⟨fun h => ?_, ?_⟩
  · simp only [FStep.run] at h
    split at h
    · rename_i c hc
      injection h with h
      subst h
      exact ⟨List.getElem?_set_self (List.getElem?_eq_some_iff.1 hc).1, fun k hk => List.getElem?_set_ne (Ne.symm hk)⟩
    · cases h
  · rintro p (rfl | rfl | rfl) h <;>
    · simp only [FStep.run] at h
      split at h
      · simp only [if_true] at h; injection h with h; exact h.symm
      · cases h

/-- C88. Move construction takes the functions along with the elements, and leaves default-constructed ones behind. -/
theorem C88_move_construction (w w' : List (Option (Functors H E))) (i : Nat) (b : Functors H E)
    (hb : w[i]? = some (some b)) (h : (FStep.moveCtor i).run w = some w') :
    w'.length = w.length + 1 ∧ w'[w.length]? = some (some b) ∧ (∀ k, k < w.length → k ≠ i → w'[k]? = w[k]?) ∧
    ∃ d, w'[i]? = some (some d) ∧ d.hashFunction = default ∧ d.keyEqual = default ∧ d.items = [] := by
  simp only [FStep.run, hb] at h
  injection h with h
  subst h
  have hi : i < w.length := (List.getElem?_eq_some_iff.1 hb).1
  refine ⟨by simp, ?_, fun k hk hi => ?_, Functors.blank, ?_, rfl, rfl, rfl⟩
  · rw [List.getElem?_append_right (by rw [List.length_set]; exact Nat.le_refl _), List.length_set, Nat.sub_self]
    rfl
  · rw [List.getElem?_append_left (by rw [List.length_set]; exact hk), List.getElem?_set_ne (Ne.symm hi)]
  · rw [List.getElem?_append_left (by rw [List.length_set]; exact hi), List.getElem?_set_self hi]
    rfl

/-- C88. In programs without move construction every cache has a pair of functions that the program gave to a constructor.
What is missing: move construction, for which this is false (`C88_given_refuted`). -/
theorem C88_given_partial (ps : List (FStep H E)) (hps : ∀ p ∈ ps, ¬ p.IsMoveCtor) (w : List (Option (Functors H E)))
    (hw : FReach ps w) (i : Nat) (c : Functors H E) (hc : w[i]? = some (some c)) :
    (c.hashFunction, c.keyEqual) ∈ FStep.given ps := by
  have h0 : AllF (fun c : Functors H E => (c.hashFunction, c.keyEqual) ∈ FStep.given ps) [] := by intro d hd; cases hd
  refine AllF.get (P := fun c : Functors H E => (c.hashFunction, c.keyEqual) ∈ FStep.given ps)
    (FStep.runAll_keeps h0 hw ?_ ?_ ?_) hc
  · intro hash eq n hm; exact FStep.mem_given hm
  · rintro ⟨p, hp, hm⟩; exact absurd hm (hps p hp)
  · intro d keep add hd; exact hd

/-- With any programs: these, or default-constructed ones. -/
theorem C88_given_or_default (ps : List (FStep H E)) (w : List (Option (Functors H E))) (hw : FReach ps w) (i : Nat)
    (c : Functors H E) (hc : w[i]? = some (some c)) :
    (c.hashFunction, c.keyEqual) ∈ (default, default) :: FStep.given ps := by
  have h0 : AllF (fun c : Functors H E => (c.hashFunction, c.keyEqual) ∈ (default, default) :: FStep.given ps) [] := by
    intro d hd; cases hd
  refine AllF.get (P := fun c : Functors H E => (c.hashFunction, c.keyEqual) ∈ (default, default) :: FStep.given ps)
    (FStep.runAll_keeps h0 hw ?_ ?_ ?_) hc
  · intro hash eq n hm; exact List.mem_cons_of_mem _ (FStep.mem_given hm)
  · intro _; exact List.mem_cons_self
  · intro d keep add hd; exact hd

/-- C88 is false of the code: a cache that was moved from by the move constructor uses functions that the program never
gave to any cache. With function pointers (here `none` is the null pointer) this is one that cannot be called. -/
theorem C88_given_refuted :
    ¬ ∀ (ps : List (FStep (Option Nat) (Option Nat))) (w : List (Option (Functors (Option Nat) (Option Nat)))),
      FReach ps w → ∀ (i : Nat) (c : Functors (Option Nat) (Option Nat)), w[i]? = some (some c) → (c.hashFunction, c.keyEqual) ∈ FStep.given ps := by
  intro h
  have h1 := h [.create (some 1) (some 2) 0, .moveCtor 0, .use 0 0 1] _ rfl 0 ⟨none, none, none, [(none, none)]⟩ rfl
  revert h1
  decide

/-- Three caches with different functions; elements are stored, swapped, copied and moved. -/
example : ∃ w : List (Option (Functors Nat Nat)),
    FReach [.create 1 2 3, .create 4 5 1, .swap 0 1, .use 0 1 2, .copyCtor 0, .moveAssign 2 1, .copyAssign 0 2, .destroy 1] w ∧
    w[0]? = some (some ⟨1, 2, 2, [(1, 2), (1, 2), (1, 2)]⟩) ∧ w[1]? = some none :=
  ⟨_, rfl, rfl, rfl⟩

/-- The hypotheses of `C88_construction`, `C88_calls_keep` and `C88_others_unaffected`. -/
example : ∃ w : List (Option (Functors Nat Nat)), FReach [.create 1 2 3, .create 4 5 1] w ∧
    (FStep.create 6 7 2).run w = some (w ++ [some ⟨6, 7, 7, [(6, 7), (6, 7)]⟩]) ∧ ((FStep.use 0 2 1).run w).isSome ∧
    ((FStep.destroy 1).run w).isSome ∧ ((FStep.copyAssign 1 1).run w).isSome :=
  ⟨_, rfl, rfl, rfl, rfl, rfl⟩

/-- The hypotheses of `C88_swap` and `C88_move_construction`. -/
example : ∃ w w' : List (Option (Functors Nat Nat)), FReach [.create 1 2 3, .create 4 5 1] w ∧
    w[0]? = some (some ⟨1, 2, 2, [(1, 2), (1, 2), (1, 2)]⟩) ∧ w[1]? = some (some ⟨4, 5, 5, [(4, 5)]⟩) ∧
    (FStep.swap 0 1).run w = some w' ∧ ((FStep.moveCtor 1).run w).isSome :=
  ⟨_, _, rfl, rfl, rfl, rfl, rfl⟩

end LRU
