import Verif.Proofs.Entry
/-!
# C95: entries are references to the elements they were obtained from

`Model.Entry` says what the steps of programs do to addresses of keys and values; `Spec.Entry` is a machine without addresses.
-/

set_option autoImplicit false

namespace LRU

variable {K V : Type}

/-- **C95** (partial: see `C95_converted_entries_refuted` for conversions between different types). In all programs whose
conversions are between entries of the same types, entries are their elements: a step is undefined exactly if it would use an
element that is not there, and key and value read through an entry are those the element has at that time, whether it has been
assigned to directly or through any entry; they are undefined exactly if it has been erased. -/
theorem C95_entries_are_elements_partial (ps : List (EStep K V)) (hp : ∀ p ∈ ps, p.SameTypes) :
    match EStep.runAll ps Refs.empty, Stand.runAll ps Stand.empty with
    | none, none => True
    | some σ, some τ => ∀ e, σ.key e = (τ.entry e).map Prod.fst ∧ σ.value e = (τ.entry e).map Prod.snd
    | _, _ => False := by
  have h := Stands.runAll hp (Stands.empty (K := K) (V := V))
  revert h
  cases EStep.runAll ps Refs.empty <;> cases Stand.runAll ps Stand.empty <;> intro h
  · trivial
  · exact h
  · exact h
  · exact fun e => ⟨h.key e, h.value e⟩

/-- Two entries of an element, one converted from the other; a write through the second is seen through the first; an erased
element is seen by neither. -/
def entryProgram : List (EStep Nat Nat) :=
  [.element 1 10, .element 2 20, .deref 0, .convert 0 none none, .deref 1, .write 1 11, .assign 1 21]

example : ∀ p ∈ entryProgram, p.SameTypes := by
  intro p hp
  simp only [entryProgram, List.mem_cons, List.not_mem_nil, or_false] at hp
  rcases hp with rfl | rfl | rfl | rfl | rfl | rfl | rfl <;> first | exact trivial | exact ⟨rfl, rfl⟩
example : (EStep.runAll entryProgram Refs.empty).map (fun σ => (σ.key 0, σ.value 0, σ.value 1, σ.value 2)) =
    some (some 1, some 11, some 11, some 21) := by decide +kernel
example : (EStep.runAll (entryProgram ++ [.erase 0]) Refs.empty).map (fun σ => (σ.key 0, σ.value 1, σ.value 2)) =
    some (none, none, some 21) := by decide +kernel
example : (EStep.runAll (entryProgram ++ [.erase 0, .write 1 5]) Refs.empty).isNone := by decide +kernel

/-- **C95**: not so for conversions between entries of different types, although the element is there all the time. -/
theorem C95_converted_entries_refuted :
    ¬ ∀ ps : List (EStep Nat Nat), match EStep.runAll ps Refs.empty, Stand.runAll ps Stand.empty with
      | none, none => True
      | some σ, some τ => ∀ e, σ.key e = (τ.entry e).map Prod.fst ∧ σ.value e = (τ.entry e).map Prod.snd
      | _, _ => False := by
  intro h
  have h1 : none = some 1 := (h [.element 1 10, .deref 0, .convert 0 (some id) none] 1).1
  cases h1

/-- **C95**: an entry made by a conversion that changes the type of the key never has a key, whatever the program does
afterwards; the same for values. -/
theorem C95_converted_entries_dangle {σ σ1 σ2 : Refs K V} {e : Nat} {f : Option (K → K)} {g : Option (V → V)}
    {ps : List (EStep K V)} (h1 : (EStep.convert e f g).run σ = some σ1) (h2 : EStep.runAll ps σ1 = some σ2) :
    (f ≠ none → σ2.key σ.entries.length = none) ∧ (g ≠ none → σ2.value σ.entries.length = none) := by
  have hl := EStep.runAll_later h2
  obtain ⟨p, _, h⟩ := Option.bind_eq_some_iff.1 h1
  obtain ⟨⟨ks, a⟩, hk, h⟩ := Option.bind_eq_some_iff.1 h
  obtain ⟨⟨vs, b⟩, hv, h⟩ := Option.bind_eq_some_iff.1 h
  injection h with h
  subst h
  have he : σ2.entries[σ.entries.length]? = some (a, b) := by
    refine hl.entries _ _ ?_
    show (σ.entries ++ [(a, b)])[σ.entries.length]? = _
    rw [List.getElem?_append_right (Nat.le_refl _), Nat.sub_self]; rfl
  constructor
  · intro hf
    have := hl.keys a ((Refs.bind_keeps hk).2 hf)
    simp only [Refs.key, Option.bind_eq_bind, he, Option.bind_some, this, Option.join_some]
  · intro hg
    have := hl.vals b ((Refs.bind_keeps hv).2 hg)
    simp only [Refs.value, Option.bind_eq_bind, he, Option.bind_some, this, Option.join_some]

example : (EStep.runAll [.element 1 10, .deref 0, .convert 0 (some (· + 0)) none, .element 3 30, .write 1 12] (Refs.empty : Refs Nat Nat)).map
    (fun σ => (σ.key 0, σ.value 0, σ.key 1, σ.value 1)) = some (some 1, some 12, none, some 12) := by decide +kernel

/-- **C95**: an entry is equal to a pair exactly if key and value are; values are compared only if the keys are equal; the
program is terminated exactly if a comparison it needs throws. -/
theorem C95_comparisons (Q : Equalities K V) {σ : Refs K V} {e : Nat} {k : K} {v : V} (hk : σ.key e = some k)
    (hv : σ.value e = some v) (p : K × V) :
    (σ.eqPair Q e p = .value true ↔ Q.keys k p.1 = some true ∧ Q.vals v p.2 = some true) ∧
    (σ.eqPair Q e p = .value false ↔ Q.keys k p.1 = some false ∨ (Q.keys k p.1 = some true ∧ Q.vals v p.2 = some false)) ∧
    (σ.eqPair Q e p = .terminate ↔ Q.keys k p.1 = none ∨ (Q.keys k p.1 = some true ∧ Q.vals v p.2 = none)) ∧
    σ.eqPair Q e p ≠ .ub := by
  unfold Refs.eqPair
  rw [hk, hv]
  rcases h1 : Q.keys k p.1 with _ | _ | _ <;> rcases h2 : Q.vals v p.2 with _ | _ | _ <;> simp [Compared.of, h1, h2]

/-- **C95**: the order of the operands does not matter, and `!=` is the opposite of `==`, terminations included. -/
theorem C95_comparisons_agree (Q : Equalities K V) (σ : Refs K V) (e : Nat) (p : K × V) :
    σ.pairEq Q p e = σ.eqPair Q e p ∧ σ.pairNe Q p e = σ.nePair Q e p ∧
    (∀ b, σ.nePair Q e p = .value b ↔ σ.eqPair Q e p = .value (!b)) ∧
    (σ.nePair Q e p = .terminate ↔ σ.eqPair Q e p = .terminate) ∧
    (σ.nePair Q e p = .ub ↔ σ.eqPair Q e p = .ub) := by
  refine ⟨rfl, rfl, ?_⟩
  unfold Refs.nePair
  cases σ.eqPair Q e p with
  | value c => cases c <;> simp [Refs.negate]
  | terminate => simp [Refs.negate]
  | ub => simp [Refs.negate]

/-- Keys compare, values throw. -/
def throwingValues : Equalities Nat Nat := ⟨fun a b => some (a == b), fun _ _ => none⟩

example : (EStep.runAll entryProgram Refs.empty).map (fun σ => (σ.key 0, σ.value 0, σ.eqPair throwingValues 0 (1, 11),
    σ.eqPair throwingValues 0 (2, 11), σ.pairNe throwingValues (2, 11) 0)) =
    some (some 1, some 11, .terminate, .value false, .value true) := by decide +kernel

end LRU
