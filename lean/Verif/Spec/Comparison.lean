import Verif.Model.Comparison
import Verif.Spec.Observe
/-!
# What comparing caches means when the program supplies the comparisons
-/

set_option autoImplicit false

namespace LRU

variable {K V : Type}

/-- The requirement of the standard library ([unord.req]): keys that are `==` are equivalent for the hash table. Equivalent
keys may still differ by `==`. -/
def Comparison.Refines [KeyEqual K] (C : Comparison K V) : Prop := ∀ k k', C.keyEq k k' = some true → keq k k' = true

/-- Two elements are the same for the program: their keys are `==`, their values not `!=`, and in timed caches they were
inserted at the same time. The values are compared in the order that the standard library chooses, the keys in both. -/
def Comparison.Same (C : Comparison K V) (kind : Kind) (x y : MapNode K V) : Prop :=
  C.keyEq x.key y.key = some true ∧
  (C.otherFirst = true → C.keyEq y.key x.key = some true ∧ C.valueNe y.info.value x.info.value = some false) ∧
  (C.otherFirst = false → C.valueNe x.info.value y.info.value = some false) ∧
  (kind ≠ .basic → x.info.time = y.info.time)

/-- A comparison of these two elements throws. -/
def Comparison.Fails (C : Comparison K V) (x y : MapNode K V) : Prop :=
  C.keyEq x.key y.key = none ∨ C.keyEq y.key x.key = none ∨
  C.valueNe x.info.value y.info.value = none ∨ C.valueNe y.info.value x.info.value = none

/-- A comparison of these two elements returns and tells them apart: their keys, their values (in the order of operands that the standard
library chooses) or, in timed caches, their insertion times. -/
def Comparison.Differ (C : Comparison K V) (kind : Kind) (x y : MapNode K V) : Prop :=
  (C.otherFirst = true ∧ (C.keyEq y.key x.key = some false ∨ C.valueNe y.info.value x.info.value = some true)) ∨
  (C.otherFirst = false ∧ (C.keyEq x.key y.key = some false ∨ C.valueNe x.info.value y.info.value = some true)) ∨
  (kind ≠ .basic ∧ x.info.time ≠ y.info.time)

/-- Why two caches are not equal: they differ in size, in a key, in what they hold for equivalent keys, or in the order of keys. -/
def Comparison.Reason [KeyEqual K] (C : Comparison K V) (a b : Cache K V) : Prop :=
  count a ≠ count b ∨ (∃ x ∈ elements a, ¬ Stored b x.key) ∨
  (∃ x ∈ elements a, ∃ y ∈ elements b, keq y.key x.key = true ∧ C.Differ a.kind x y) ∨
  ∃ (n : Nat) (x y : MapNode K V), (elements a)[n]? = some x ∧ (elements b)[n]? = some y ∧ C.keyEq x.key y.key = some false

/-- Lists of the same length whose elements are related one by one. -/
def Pointwise {α β : Type} (R : α → β → Prop) (l : List α) (m : List β) : Prop :=
  l.length = m.length ∧ ∀ (i : Nat) x y, l[i]? = some x → m[i]? = some y → R x y

end LRU
