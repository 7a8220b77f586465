import Verif.Proofs.Comparison
import Verif.Props.Copies
/-!
# Comparing caches with the program's own comparisons: C92

`C29_equality` (`Props.Copies`) is about keys and values that are compared by equality. Here the program supplies `==` for
keys and `!=` for values.
-/

set_option linter.unusedSectionVars false
set_option autoImplicit false

namespace LRU

variable {K V : Type} [KeyEqual K] [DecidableEq K] [DecidableEq V] {O : Oracle K V} {C : Comparison K V}
  {w w' : World K V} {ok : WOp K V → Prop} {i j k : Nat} {a b c : Cache K V}

/-- C92. Whatever the comparisons of the program are, as long as keys that are `==` are equivalent for the hash table, and
whatever the program has done: `==` of two caches changes nothing and is true iff they are one object or hold, in the same
order, entries that are the same for the program. The program is terminated only if comparing an element of the one
cache with an element of the other throws. -/
theorem C92_equality (hC : C.Refines) (hO : NoListFault O) (hw : Reach O ok w) (ha : w.caches[i]? = some (some a))
    (hb : w.caches[j]? = some (some b)) :
    (Impl.equalBy C i j w = .ok true w ∧ (i = j ∨ Pointwise (C.Same a.kind) (elements a) (elements b))) ∨
    (Impl.equalBy C i j w = .ok false w ∧ ¬ (i = j ∨ Pointwise (C.Same a.kind) (elements a) (elements b))) ∨
    (Impl.equalBy C i j w = .terminate ∧ ¬ (i = j ∨ Pointwise (C.Same a.kind) (elements a) (elements b)) ∧
      ∃ x ∈ elements a, ∃ y ∈ elements b, C.Fails x y) := by
  have get : ∀ {i : Nat} {c : Cache K V}, w.caches[i]? = some (some c) → Impl.getCache i w = .ok c w := by
    intro i c h
    unfold Impl.getCache
    rw [h]
  unfold Impl.equalBy
  by_cases hij : i = j
  · refine .inl ⟨noexcept_ok ?_, .inl hij⟩
    rw [bind_ok (get ha), bind_ok (get hb), if_pos hij]
    rfl
  · obtain ⟨x, hx⟩ := hw.rel hO ha
    obtain ⟨y, hy⟩ := hw.rel hO hb
    rcases cachesEqBy_verdict (σ := World K V) hC hx hy w with ⟨h1, h2⟩ | ⟨h1, h2⟩ | ⟨e, h1, h2, h3⟩
    · refine .inl ⟨noexcept_ok ?_, .inr h2⟩
      rw [bind_ok (get ha), bind_ok (get hb), if_neg hij]
      exact h1
    · refine .inr (.inl ⟨noexcept_ok ?_, fun h => h.elim hij h2⟩)
      rw [bind_ok (get ha), bind_ok (get hb), if_neg hij]
      exact h1
    · refine .inr (.inr ⟨noexcept_throw (e := e) (s' := w) ?_, fun h => h.elim hij h2, h3⟩)
      rw [bind_ok (get ha), bind_ok (get hb), if_neg hij]
      exact h1

/-- C92. When `==` is true. -/
theorem C92_equal_iff (hC : C.Refines) (hO : NoListFault O) (hw : Reach O ok w) (ha : w.caches[i]? = some (some a))
    (hb : w.caches[j]? = some (some b)) :
    Impl.equalBy C i j w = .ok true w ↔ i = j ∨ Pointwise (C.Same a.kind) (elements a) (elements b) := by
  rcases C92_equality hC hO hw ha hb with ⟨h1, h2⟩ | ⟨h1, h2⟩ | ⟨h1, h2, -⟩
  · exact ⟨fun _ => h2, fun _ => h1⟩
  · exact ⟨fun h => (by rw [h1] at h; cases h), fun h => absurd h h2⟩
  · exact ⟨fun h => (by rw [h1] at h; cases h), fun h => absurd h h2⟩

/-- C92. `==` is false only for a reason that the comparisons of the program gave: the sizes differ, a key is missing, the elements
stored for equivalent keys were told apart, or the keys at some place of the orders. -/
theorem C92_false_for_a_reason (hO : NoListFault O) (hw : Reach O ok w) (ha : w.caches[i]? = some (some a))
    (hb : w.caches[j]? = some (some b)) (h : Impl.equalBy C i j w = .ok false w') : C.Reason a b := by
  have get : ∀ {i : Nat} {c : Cache K V}, w.caches[i]? = some (some c) → Impl.getCache i w = .ok c w := by
    intro i c h
    unfold Impl.getCache
    rw [h]
  obtain ⟨x, hx⟩ := hw.rel hO ha
  obtain ⟨y, hy⟩ := hw.rel hO hb
  have h' := ok_of_noexcept h
  rw [bind_ok (get ha), bind_ok (get hb)] at h'
  split at h'
  · cases h'
  · exact cachesEqBy_false (σ := World K V) hx hy w w' h'

/-- C92. So comparing two caches terminates the program if they are not the same for it, and no comparison tells them apart. -/
theorem C92_terminates (hC : C.Refines) (hO : NoListFault O) (hw : Reach O ok w) (ha : w.caches[i]? = some (some a))
    (hb : w.caches[j]? = some (some b)) (hij : i ≠ j) (hs : ¬ Pointwise (C.Same a.kind) (elements a) (elements b))
    (hr : ¬ C.Reason a b) : Impl.equalBy C i j w = .terminate := by
  rcases C92_equality hC hO hw ha hb with ⟨-, h⟩ | ⟨h, -⟩ | ⟨h, -, -⟩
  · exact absurd h (fun h => h.elim hij hs)
  · exact absurd (C92_false_for_a_reason hO hw ha hb h) hr
  · exact h

/-- C92. Caches of different sizes are not equal, and nothing is compared to find out: it does not matter which comparisons throw. -/
theorem C92_different_sizes (hO : NoListFault O) (hw : Reach O ok w) (ha : w.caches[i]? = some (some a))
    (hb : w.caches[j]? = some (some b)) (h : count a ≠ count b) : Impl.equalBy C i j w = .ok false w := by
  have get : ∀ {i : Nat} {c : Cache K V}, w.caches[i]? = some (some c) → Impl.getCache i w = .ok c w := by
    intro i c h
    unfold Impl.getCache
    rw [h]
  have hij : i ≠ j := by
    rintro rfl
    rw [ha] at hb
    cases hb
    exact h rfl
  obtain ⟨x, hx⟩ := hw.rel hO ha
  obtain ⟨y, hy⟩ := hw.rel hO hb
  have hl : a.map.length ≠ b.map.length := by
    have h1 : a.map.length = count a := by
      rw [count, show elements a = _ from hx.elements, List.length_map]
      exact hx.map_length
    have h2 : b.map.length = count b := by
      rw [count, show elements b = _ from hy.elements, List.length_map]
      exact hy.map_length
    rw [h1, h2]
    exact h
  refine noexcept_ok ?_
  rw [bind_ok (get ha), bind_ok (get hb), if_neg hij]
  unfold Impl.mapEqBy
  rw [if_neg hl]
  rfl

/-- C92. `!=` is the opposite of `==`, and terminates the program when `==` does. -/
theorem C92_inequality (hC : C.Refines) (hO : NoListFault O) (hw : Reach O ok w) (ha : w.caches[i]? = some (some a))
    (hb : w.caches[j]? = some (some b)) :
    (∀ r, Impl.notEqualBy C i j w = .ok r w ↔ Impl.equalBy C i j w = .ok (!r) w) ∧
    (Impl.notEqualBy C i j w = .terminate ↔ Impl.equalBy C i j w = .terminate) := by
  have key : ∀ x, Impl.equalBy C i j w = .ok x w → Impl.notEqualBy C i j w = .ok (!x) w := fun x h =>
    noexcept_ok (by rw [bind_ok h]; rfl)
  have stop : Impl.equalBy C i j w = .terminate → Impl.notEqualBy C i j w = .terminate := fun h => by
    unfold Impl.notEqualBy M.noexcept
    rw [bind_terminate h]
  rcases C92_equality hC hO hw ha hb with ⟨h1, -⟩ | ⟨h1, -⟩ | ⟨h1, -, -⟩
  · rw [key _ h1, h1]
    refine ⟨fun r => ?_, by simp⟩
    cases r <;> simp
  · rw [key _ h1, h1]
    refine ⟨fun r => ?_, by simp⟩
    cases r <;> simp
  · rw [stop h1, h1]
    exact ⟨fun r => by simp, Iff.rfl⟩

/-- C92. A cache is equal to itself, even if its values are not equal to themselves; nothing is compared. -/
theorem C92_reflexive (ha : w.caches[i]? = some (some a)) : Impl.equalBy C i i w = .ok true w := by
  have get : Impl.getCache i w = .ok a w := by
    unfold Impl.getCache
    rw [ha]
  refine noexcept_ok ?_
  rw [bind_ok get, bind_ok get, if_pos rfl]
  rfl

theorem pointwise_flip {α β : Type} {R : α → β → Prop} {S : β → α → Prop} (h : ∀ x y, R x y → S y x) {l : List α} {m : List β}
    (hl : Pointwise R l m) : Pointwise S m l :=
  ⟨hl.1.symm, fun i x y hx hy => h _ _ (hl.2 i y x hy hx)⟩

theorem pointwise_trans {α β γ : Type} {R : α → β → Prop} {S : β → γ → Prop} {T : α → γ → Prop}
    (h : ∀ x y z, R x y → S y z → T x z) {l : List α} {m : List β} {n : List γ} (hl : Pointwise R l m)
    (hm : Pointwise S m n) : Pointwise T l n := by
  refine ⟨hl.1.trans hm.1, fun i x z hx hz => ?_⟩
  have hlt : i < m.length := by
    rw [← hl.1]
    exact (List.getElem?_eq_some_iff.1 hx).1
  exact h x _ z (hl.2 i x _ hx (List.getElem?_eq_getElem hlt)) (hm.2 i _ z (List.getElem?_eq_getElem hlt) hz)

theorem same_kind {x y : Kind} (h : Impl.sameBase x y = true) : x ≠ .basic ↔ y ≠ .basic := by
  cases x <;> cases y <;> simp_all [Impl.sameBase]

/-- C92. If the comparisons of the program are symmetric, so is that of caches. -/
theorem C92_symmetric (hC : C.Refines) (hO : NoListFault O) (hw : Reach O ok w) (ha : w.caches[i]? = some (some a))
    (hb : w.caches[j]? = some (some b)) (ht : Impl.sameBase a.kind b.kind = true)
    (hk : ∀ x y, C.keyEq x y = C.keyEq y x) (hv : ∀ x y, C.valueNe x y = C.valueNe y x) :
    Impl.equalBy C i j w = .ok true w ↔ Impl.equalBy C j i w = .ok true w := by
  rw [C92_equal_iff hC hO hw ha hb, C92_equal_iff hC hO hw hb ha, eq_comm (a := i)]
  have flip : ∀ {k k' : Kind} {x y : MapNode K V}, (k ≠ .basic ↔ k' ≠ .basic) → C.Same k x y → C.Same k' y x := by
    intro k k' x y hkk ⟨h1, h2, h3, h4⟩
    refine ⟨by rw [hk]; exact h1, fun h => ⟨h1, ?_⟩, fun h => ?_, fun h => (h4 (hkk.2 h)).symm⟩
    · rw [hv]
      exact (h2 h).2
    · rw [hv]
      exact h3 h
  exact or_congr Iff.rfl ⟨pointwise_flip fun _ _ => flip (same_kind ht), pointwise_flip fun _ _ => flip (same_kind ht).symm⟩

/-- C92. If the comparisons of the program are transitive, so is that of caches. -/
theorem C92_transitive (hC : C.Refines) (hO : NoListFault O) (hw : Reach O ok w) (ha : w.caches[i]? = some (some a))
    (hb : w.caches[j]? = some (some b)) (hc : w.caches[k]? = some (some c)) (ht : Impl.sameBase a.kind b.kind = true)
    (hk : ∀ x y z, C.keyEq x y = some true → C.keyEq y z = some true → C.keyEq x z = some true)
    (hv : ∀ x y z, C.valueNe x y = some false → C.valueNe y z = some false → C.valueNe x z = some false)
    (h : Impl.equalBy C i j w = .ok true w) (h' : Impl.equalBy C j k w = .ok true w) :
    Impl.equalBy C i k w = .ok true w := by
  rw [C92_equal_iff hC hO hw ha hb] at h
  rw [C92_equal_iff hC hO hw hb hc] at h'
  rw [C92_equal_iff hC hO hw ha hc]
  rcases h with rfl | h
  · rw [ha] at hb
    cases hb
    exact h'
  · rcases h' with rfl | h'
    · rw [hb] at hc
      cases hc
      exact .inr h
    · refine .inr (pointwise_trans ?_ h h')
      rintro x y z ⟨h1, h2, h3, h4⟩ ⟨h5, h6, h7, h8⟩
      exact ⟨hk _ _ _ h1 h5, fun h => ⟨hk _ _ _ (h6 h).1 (h2 h).1, hv _ _ _ (h6 h).2 (h2 h).2⟩,
        fun h => hv _ _ _ (h3 h) (h7 h), fun h => (h4 h).trans (h8 ((same_kind ht).1 h))⟩

theorem same_content {kind : Kind} {x y z : MapNode K V} (h : content y = content z) : C.Same kind x y ↔ C.Same kind x z := by
  simp only [content, Prod.mk.injEq] at h
  obtain ⟨h1, h2, h3⟩ := h
  unfold Comparison.Same
  rw [h1, h2, h3]

/-- C92. The copy of a cache (`C27_copy_construction`, `C27_copy_assignment`) is equal to it iff its entries are the same as
themselves for the program. -/
theorem C92_copies (hC : C.Refines) (hO : NoListFault O) (hw : Reach O ok w') (h : IsCopy w b c)
    (hb : w'.caches[i]? = some (some b)) (hc : w'.caches[j]? = some (some c)) (hij : i ≠ j) :
    Impl.equalBy C i j w' = .ok true w' ↔ ∀ x ∈ elements b, C.Same b.kind x x := by
  rw [C92_equal_iff hC hO hw hb hc]
  have hlen : (elements b).length = (elements c).length := by simpa using congrArg List.length h.entries.symm
  have hat : ∀ (n : Nat) x y, (elements b)[n]? = some x → (elements c)[n]? = some y → content y = content x := by
    intro n x y hx hy
    have := congrArg (·[n]?) h.entries
    simpa [hx, hy] using this
  constructor
  · rintro (h1 | ⟨-, h1⟩) x hx
    · exact absurd h1 hij
    · obtain ⟨n, hn⟩ := List.getElem?_of_mem hx
      have hlt : n < (elements c).length := by
        rw [← hlen]
        exact (List.getElem?_eq_some_iff.1 hn).1
      exact (same_content (hat n x _ hn (List.getElem?_eq_getElem hlt))).1 (h1 n x _ hn (List.getElem?_eq_getElem hlt))
  · intro h1
    exact .inr ⟨hlen, fun n x y hx hy => (same_content (hat n x y hx hy)).2 (h1 x (List.mem_of_getElem? hx))⟩

/-- Comparisons by equality. -/
def exactly (K V : Type) [DecidableEq K] [DecidableEq V] (first : Bool) : Comparison K V where
  keyEq x y := some (decide (x = y))
  valueNe x y := some (decide (x ≠ y))
  otherFirst := first

theorem exactly_refines {first : Bool} : (exactly K V first).Refines := by
  intro x y h
  simp only [exactly, Option.some.injEq, decide_eq_true_eq] at h
  subst h
  exact KeyEqual.refl _

/-- C92. With equality for comparison this is the comparison of the model (`Impl.equal`), to which C29 applies. -/
theorem C92_same_as_model (hO : NoListFault O) (hw : Reach O ok w) (ha : w.caches[i]? = some (some a))
    (hb : w.caches[j]? = some (some b)) (first : Bool) :
    ∃ r, Impl.equalBy (exactly K V first) i j w = .ok r w ∧ Impl.wstep O (.eq i j) w = .ok (.bool r) w := by
  obtain ⟨r, h1, h2⟩ := C29_equality hO hw ha hb
  have same : ∀ x y : MapNode K V, (exactly K V first).Same a.kind x y ↔ compared a.kind x = compared a.kind y := by
    intro x y
    unfold Comparison.Same compared exactly
    cases first <;> cases a.kind <;> simp <;> grind
  have hr : r = true ↔ i = j ∨ Pointwise ((exactly K V first).Same a.kind) (elements a) (elements b) := by
    rw [h2]
    constructor
    · intro h
      refine .inr ⟨by simpa using congrArg List.length h, fun n x y hx hy => (same x y).2 ?_⟩
      have := congrArg (·[n]?) h
      simpa [hx, hy] using this
    · rintro (rfl | ⟨h3, h4⟩)
      · rw [ha] at hb
        cases hb
        rfl
      · refine List.ext_getElem? fun n => ?_
        rw [List.getElem?_map, List.getElem?_map]
        by_cases hn : n < (elements a).length
        · rw [List.getElem?_eq_getElem hn, List.getElem?_eq_getElem (h3 ▸ hn)]
          exact congrArg some ((same _ _).1 (h4 n _ _ (List.getElem?_eq_getElem hn) (List.getElem?_eq_getElem (h3 ▸ hn))))
        · rw [List.getElem?_eq_none (by omega), List.getElem?_eq_none (by omega)]
  refine ⟨r, ?_, h1⟩
  rcases C92_equality exactly_refines hO hw ha hb with ⟨h3, h4⟩ | ⟨h3, h4⟩ | ⟨-, -, x, -, y, -, h5⟩
  · rw [h3, hr.2 h4]
  · rw [h3]
    cases r
    · rfl
    · exact absurd (hr.1 rfl) h4
  · simp [Comparison.Fails, exactly] at h5

/-! ### Comparisons that are not equality -/

/-- Values of which `0` is not equal to itself, as not-a-number; keys are numbers compared by `==`. -/
def withNaN : Comparison Nat Nat where
  keyEq x y := some (decide (x = y))
  valueNe x y := some (decide (x ≠ y) || x == 0)
  otherFirst := true

/-- Comparing values throws if one of them is `13`. -/
def throwsAt13 : Comparison Nat Nat where
  keyEq x y := some (decide (x = y))
  valueNe x y := if x = 13 ∨ y = 13 then none else some (decide (x ≠ y))
  otherFirst := false

/-- Values that are compared modulo ten. -/
def moduloTen : Comparison Nat Nat where
  keyEq x y := some (decide (x = y))
  valueNe x y := some (decide (x % 10 ≠ y % 10))
  otherFirst := true

/-- C92. False of the code, and of the containers of the standard library: that the copy of a cache is always equal to it.
A cache that holds a value that is not equal to itself is equal to itself but not to its copy, so that the result of `==`
is not determined by what the caches hold. -/
theorem C92_copy_refuted : ¬ ∀ (C : Comparison Nat Nat) (O : Oracle Nat Nat) (w w' : World Nat Nat) (i : Nat), C.Refines →
    NoListFault O → Reach O (fun _ => True) w → Impl.wstep O (.copyCtor i) w = .ok .unit w' →
    Impl.equalBy C i w.caches.length w' = .ok true w' := by
  intro h
  have hr : withNaN.Refines := by
    intro x y hxy
    simp only [withNaN, Option.some.injEq, decide_eq_true_eq] at hxy
    subst hxy
    exact KeyEqual.refl _
  let ops : List (WOp Nat Nat) := [.create .basic (.sized 3), .op 0 (.insert 1 10), .op 0 (.insert 2 0)]
  cases he : exec calmO ops Impl.initWorld with
  | none => exact absurd he (by decide +kernel)
  | some w =>
    have hw : Reach calmO (fun _ => True) w := exec_reach he (fun _ _ => trivial) .init
    cases hs : Impl.wstep calmO (.copyCtor 0) w with
    | ok r w' =>
      have hx : (exec calmO ops Impl.initWorld).map (fun w => (Impl.wstep calmO (.copyCtor 0) w).result) = some (some .unit) ∧
          (exec calmO ops Impl.initWorld).map (fun w => ((Impl.wstep calmO (.copyCtor 0) w).state.map fun w' =>
            (Impl.equalBy withNaN 0 w.caches.length w').result)) = some (some (some false)) := by decide +kernel
      rw [he] at hx
      simp only [Option.map_some, hs, Out.result, Out.state, Option.some.injEq] at hx
      obtain ⟨rfl, hx⟩ := hx
      rw [h withNaN calmO w w' 0 hr (fun _ => rfl) hw hs] at hx
      cases hx
    | throw e s =>
      have hx : (exec calmO ops Impl.initWorld).map (fun w => (Impl.wstep calmO (.copyCtor 0) w).result) = some (some .unit) := by
        decide +kernel
      rw [he] at hx
      simp [hs, Out.result] at hx
    | _ =>
      have hx : (exec calmO ops Impl.initWorld).map (fun w => (Impl.wstep calmO (.copyCtor 0) w).result) = some (some .unit) := by
        decide +kernel
      rw [he] at hx
      simp [hs, Out.result] at hx

/-- Two caches that hold the values `10, 20, 13` and `30, 20, 13`, one like the first, one with the keys in another order,
one with the value `13` only. Modulo ten the first two are equal, in both directions; the order counts
all the same. Comparing `13` throws, unless caches are of different size; then (`C92_terminates`) nothing tells the first and the third
apart, and the program is terminated. -/
example : ((exec calmO [.create .basic (.sized 3), .op 0 (.insert 1 10), .op 0 (.insert 2 20), .op 0 (.insert 3 13),
      .create .basic (.sized 9), .op 1 (.insert 1 30), .op 1 (.insert 2 20), .op 1 (.insert 3 13),
      .create .basic (.sized 3), .op 2 (.insert 1 10), .op 2 (.insert 2 20), .op 2 (.insert 3 13),
      .create .basic (.sized 3), .op 3 (.insert 2 20), .op 3 (.insert 1 10), .op 3 (.insert 3 13),
      .create .basic (.sized 3), .op 4 (.insert 3 13)]
      Impl.initWorld).map fun w =>
    ([(Impl.equalBy moduloTen 0 1 w).result, (Impl.equalBy moduloTen 1 0 w).result, (Impl.equalBy moduloTen 0 3 w).result,
      (Impl.equalBy (exactly Nat Nat true) 0 1 w).result, (Impl.equalBy (exactly Nat Nat true) 0 2 w).result,
      (Impl.equalBy throwsAt13 0 0 w).result, (Impl.equalBy throwsAt13 0 4 w).result],
      (match Impl.equalBy throwsAt13 0 2 w with | .terminate => true | _ => false))) =
    some ([some true, some true, some false, some false, some true, some true, some false], true) := by decide +kernel

end LRU
