import Verif.Proofs.Optional
/-!
# C94: the replacement of `std::optional`
-/

set_option autoImplicit false
set_option linter.unusedSectionVars false

namespace LRU

open Opt

variable {T : Type} {fails : Nat → Bool} {left : T → T} {s : OSt T}

/-- What is left in a moved-from object of the class: nothing. -/
def emptied : T → Option T := fun _ => none

/-- C94. The operations of `Optional` do to the values held what they should: construction, copies, moves, conversions, assignments
(also of an object to itself), `swap`, `reset` and `emplace` (also from its own value), reading and writing. A moved-from object is empty. -/
theorem C94_contents (h : OReach fails left s) (op : OOp T) {r : ORes T} {c : Contents T}
    (hm : meaning emptied left s.contents op = .done r c) (hf : (constructs s.contents op && fails s.steps) = false) :
    ∃ s', ostep fails left op s = .ok r s' ∧ s'.contents = c := by
  have := step_sound (fails := fails) (left := left) h.owned op
  change Sound fails s (meaning emptied left s.contents op) _ _ _ at this
  rw [hm] at this
  simp only [Sound, hf] at this
  obtain ⟨s', h1, h2, _⟩ := this
  exact ⟨s', h1, h2⟩

/-- C94. If constructing a value throws, the operation throws and no object has changed: not even the addresses of values. (The
generalized move constructor: see below.) -/
theorem C94_strong_guarantee (h : OReach fails left s) (op : OOp T) {r : ORes T} {c : Contents T}
    (hm : meaning emptied left s.contents op = .done r c) (hc : constructs s.contents op = true) (hf : fails s.steps = true)
    (hn : ∀ f i, op ≠ .convertMoveNew f i) :
    ∃ s', ostep fails left op s = .throw .badAlloc s' ∧ s'.objs = s.objs ∧ s'.heap = s.heap := by
  have := step_sound (fails := fails) (left := left) h.owned op
  change Sound fails s (meaning emptied left s.contents op) _ _ _ at this
  rw [hm] at this
  simp only [Sound, hc, hf] at this
  cases op with
  | convertMoveNew f i => exact absurd rfl (hn f i)
  | _ => exact ⟨_, this, rfl, rfl⟩

/-- C94. The generalized move constructor is `noexcept`: it terminates the program if there is a value and constructing the new one
throws. -/
theorem C94_conversion_terminates (h : OReach fails left s) (f : T → T) (i : Nat) {t : T} (hi : s.contents.get i = some (some t))
    (hf : fails s.steps = true) : ostep fails left (.convertMoveNew f i) s = .terminate := by
  have := step_sound (fails := fails) (left := left) h.owned (.convertMoveNew f i)
  change Sound fails s (meaning emptied left s.contents (.convertMoveNew f i)) _ _ _ at this
  have hc : constructs s.contents (.convertMoveNew f i) = true := by simp [constructs, hi]
  simpa [meaning, using', hi, Sound, hc, hf] using this

/-- C94. The only other exception is that of `value()` without a value, which changes nothing. -/
theorem C94_no_value (h : OReach fails left s) (op : OOp T) (hm : meaning emptied left s.contents op = .noValue) :
    ostep fails left op s = .throw .user s := by
  have := step_sound (fails := fails) (left := left) h.owned op
  change Sound fails s (meaning emptied left s.contents op) _ _ _ at this
  rw [hm] at this
  exact this

/-- C94. An operation is undefined exactly if it should be: if it uses an object that is gone, or `*` without a value. In particular
no cell is freed twice, or used after it was freed. -/
theorem C94_undefined (h : OReach fails left s) (op : OOp T) :
    ostep fails left op s = .ub ↔ meaning emptied left s.contents op = .undefined := by
  have := step_sound (fails := fails) (left := left) h.owned op
  change Sound fails s (meaning emptied left s.contents op) _ _ _ at this
  cases hv : meaning emptied left s.contents op with
  | undefined => rw [hv] at this; exact ⟨fun _ => rfl, fun _ => this⟩
  | noValue =>
    rw [hv] at this
    have e : ostep fails left op s = .throw .user s := this
    rw [e]
    exact ⟨(fun h => nomatch h), fun h => nomatch h⟩
  | done r c =>
    rw [hv] at this
    simp only [Sound] at this
    refine ⟨fun e => ?_, fun h => nomatch h⟩
    rw [e] at this
    split at this
    · split at this <;> cases this
    · obtain ⟨_, h1, _⟩ := this; cases h1

/-- C94. Every live cell belongs to exactly one live object, and every object that has a cell has a live one: nothing leaks, nothing
dangles. -/
theorem C94_ownership (h : OReach fails left s) (a : Nat) :
    ((s.heap a).isSome = true ↔ ∃ i : Nat, s.objs[i]? = some (some (some a))) ∧
    ∀ i j : Nat, s.objs[i]? = some (some (some a)) → s.objs[j]? = some (some (some a)) → i = j := by
  have ho := h.owned
  refine ⟨⟨fun ha => ?_, fun ⟨i, hi⟩ => (ho.live a).2 (List.mem_append_left _ (mem_ptrs hi))⟩, fun i j hi hj => ?_⟩
  · have := (ho.live a).1 ha
    rw [List.append_nil] at this
    obtain ⟨o, ho, he⟩ := List.mem_filterMap.1 this
    obtain ⟨i, hi⟩ := List.getElem?_of_mem ho
    refine ⟨i, ?_⟩
    rw [hi]
    rcases o with _ | _ | b
    · cases he
    · cases he
    · cases he; rfl
  · exact Owned.contents_stored.ptrs_inj (List.nodup_append.1 ho.nodup).1 hi hj

/-- C94. When all objects are gone or empty, nothing is left on the heap. -/
theorem C94_no_leak (h : OReach fails left s) (hg : ∀ o ∈ s.contents, o.join = none) (a : Nat) : s.heap a = none := by
  cases ha : s.heap a with
  | none => rfl
  | some t =>
    obtain ⟨i, hi⟩ := (C94_ownership h a).1.1 (by rw [ha]; rfl)
    have : some (some t) ∈ s.contents := by
      refine List.mem_of_getElem? (i := i) ?_
      simp [OSt.contents, hi, ha]
    exact absurd (hg _ this) (by simp)

/-- C94. Moving and swapping leave the values where they are: pointers and references to them remain good (those to a value of a
`std::optional` would refer to the old object). -/
theorem C94_references_survive (i j : Nat) {p q : Option Nat} (hi : s.objs[i]? = some (some p)) (hj : s.objs[j]? = some (some q)) :
    (∃ s', ostep fails left (.moveNew i) s = .ok .unit s' ∧ s'.heap = s.heap ∧ s'.objs = s.objs.set i (some none) ++ [some p]) ∧
    (∃ s', ostep fails left (.swap i j) s = .ok .unit s' ∧ s'.heap = s.heap ∧ s'.objs = (s.objs.set i (some q)).set j (some p)) :=
  ⟨⟨_, give_ok (a := ()) ((bind_of_ok (ptrOf_ok hi)).trans rfl), rfl, rfl⟩,
    ⟨_, give_ok (a := ()) ((bind_of_ok (ptrOf_ok hi)).trans ((bind_of_ok (ptrOf_ok hj)).trans rfl)), rfl, rfl⟩⟩

/-- The program sees of the class what it sees of the meaning of its operations, if no construction throws. -/
theorem oseen_eq (hn : ∀ n, fails n = false) (ops : List (OOp T)) :
    ∀ s : OSt T, OReach fails left s → oseen fails left s ops = seen (meaning emptied left) s.contents ops := by
  induction ops with
  | nil => intros; rfl
  | cons op ops ih =>
    intro s h
    unfold oseen seen
    cases hv : meaning emptied left s.contents op with
    | undefined => rw [(C94_undefined h op).2 hv]
    | noValue =>
      have e := C94_no_value h op hv
      simp only [e]
      rw [ih s h]
    | done r c =>
      obtain ⟨s', e, hc⟩ := C94_contents h op hv (by rw [hn]; simp)
      simp only [e]
      rw [ih s' (h.ok e), hc]

/-- C94, what of it holds. A program that does not use objects it has moved from, and does not move or emplace an object into itself,
sees the same with the replacement as with `std::optional`, whose moved-from objects still hold a value (`left`). Missing: exceptions of
constructors of values; `std::optional` promises less then. -/
theorem C94_like_std_optional_partial (hn : ∀ n, fails n = false) (ops : List (OOp T)) (hc : careful [] ops = true) :
    oseen fails left initial ops = seen (meaning (fun t => some (left t)) left) [] ops := by
  rw [oseen_eq hn ops initial .init]
  exact seen_alike emptied (fun t => some (left t)) ops [] [] [] ⟨rfl, fun _ => ⟨rfl, fun _ => rfl⟩⟩ (fun i hi => nomatch hi) hc

/-- C94. False of the code: that all programs see the same as with `std::optional`. A moved-from object has no value. -/
theorem C94_like_std_optional_refuted : ¬ ∀ (left : Nat → Nat) (ops : List (OOp Nat)),
    oseen (fun _ => false) left initial ops = seen (meaning (fun t => some (left t)) left) [] ops := fun h =>
  absurd (h id [.create, .emplace 0 7, .moveNew 0, .hasValue 0]) (by decide +kernel)

/-- C94. False of the code: that an `Optional<U>` converts to `Optional<T>` if `U` converts to `T`; the constraint is the wrong way
round. Types as in a class hierarchy: pointers to derived objects (`true`) convert to pointers to base objects (`false`). -/
theorem C94_conversion_refuted :
    (¬ ∀ {Ty : Type} (convertible : Ty → Ty → Bool) (T U : Ty), convertible U T = true → participates convertible T U = true) ∧
    (¬ ∀ {Ty : Type} (convertible : Ty → Ty → Bool) (T U : Ty), participates convertible T U = true → convertible U T = true) :=
  ⟨fun h => absurd (@h Bool (fun a b => a || !b) false true rfl) (by decide),
    fun h => absurd (@h Bool (fun a b => a || !b) true false rfl) (by decide)⟩

/-- A program that copies, moves, converts, assigns an object to itself and emplaces a value into its own object. It is not careful in the
last steps, where it looks into the object it moved from. -/
example :
    let ops : List (OOp Nat) := [.create, .emplace 0 7, .copyNew 0, .store 1 8, .deref 0, .assign 0 0, .emplaceFrom 0 0, .deref 0,
      .convertNew (· + 1) 1, .value 2, .moveNew 2, .deref 3, .moveAssign 0 0, .deref 0, .swap 0 1, .deref 0, .hasValue 2, .value 2,
      .valueOr 2 5, .destroy 0, .deref 0]
    oseen (fun _ => false) (fun _ => 0) initial ops =
      [.result .unit, .result .unit, .result .unit, .result .unit, .result (.value 7), .result .unit, .result .unit, .result (.value 7),
        .result .unit, .result (.value 9), .result .unit, .result (.value 9), .result .unit, .result (.value 7), .result .unit,
        .result (.value 8), .result (.bool false), .noValue, .result (.value 5), .result .unit, .undefined] ∧
    careful [] (ops.take 6 ++ [.moveNew 0, .reset 0, .hasValue 0]) = true ∧ careful [] ops = false := by
  decide +kernel

/-- The same, with constructions that fail: the second `emplace` throws and keeps the old value; copying throws; the generalized move
constructor ends the program. -/
example :
    oseen (fun n => n ≥ 1) (fun _ => 0) initial [.create, .emplace 0 7, .emplace 0 8, .deref 0, .copyNew 0, .assign 0 0, .deref 0,
      .convertMoveNew (· + 1) 0, .deref 0] =
      [.result .unit, .result .unit, .failed, .result (.value 7), .failed, .failed, .result (.value 7), Seen.failed] := by
  decide +kernel

end LRU
