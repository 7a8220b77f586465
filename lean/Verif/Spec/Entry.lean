import Verif.Model.Entry
/-!
# What is expected of entries

A machine without references: there are elements, and every entry stands for one of them.
-/

set_option autoImplicit false

namespace LRU

variable {K V : Type}

/-- The elements (`none`: erased), and the element each entry stands for. -/
structure Stand (K V : Type) where
  elems : List (Option (K × V))
  roots : List Nat

/-- The element entry `e` stands for, if it is still there. -/
def Stand.entry (σ : Stand K V) (e : Nat) : Option (K × V) := do
  let i ← σ.roots[e]?
  (σ.elems[i]?).join

/-- A step; converted entries stand for the same element. -/
def Stand.step (σ : Stand K V) : EStep K V → Option (Stand K V)
  | .element k v => some { σ with elems := σ.elems ++ [some (k, v)] }
  | .erase i => do
    let _ ← (σ.elems[i]?).join
    some { σ with elems := σ.elems.set i none }
  | .assign i v => do
    let x ← (σ.elems[i]?).join
    some { σ with elems := σ.elems.set i (some (x.1, v)) }
  | .deref i => do
    let _ ← (σ.elems[i]?).join
    some { σ with roots := σ.roots ++ [i] }
  | .convert e _ _ => do
    let i ← σ.roots[e]?
    some { σ with roots := σ.roots ++ [i] }
  | .write e v => do
    let i ← σ.roots[e]?
    let x ← (σ.elems[i]?).join
    some { σ with elems := σ.elems.set i (some (x.1, v)) }

/-- A program. -/
def Stand.runAll : List (EStep K V) → Stand K V → Option (Stand K V)
  | [], σ => some σ
  | p :: ps, σ => (σ.step p).bind (Stand.runAll ps)

/-- Conversions are between entries of the same types (up to `const`). -/
def EStep.SameTypes : EStep K V → Prop
  | .convert _ f g => f = none ∧ g = none
  | _ => True

/-- Nothing yet. -/
def Refs.empty : Refs K V := ⟨[], [], [], []⟩

/-- Nothing yet. -/
def Stand.empty : Stand K V := ⟨[], []⟩

end LRU
