import Verif.Model.Floating
/-!
# Roundings

What the theorems on floating-point numbers assume about a rounding. All modes of IEEE 754 have these properties.
-/

set_option autoImplicit false

namespace LRU

/-- A rounding to `p` binary digits. On the numbers that occur (up to `2 ^ 100`) it keeps the order and leaves alone the
numbers that have `p` digits only, none of them less than `2 ^ -q`. -/
structure Rounding (p q : Nat) (rnd : Rat → Rat) : Prop where
  mono : ∀ x y : Rat, -2 ^ 100 ≤ x → x ≤ y → y ≤ 2 ^ 100 → rnd x ≤ rnd y
  fine : ∀ (m : Int) (j : Nat), -2 ^ p ≤ m → m ≤ 2 ^ p → j ≤ q → (m / 2 ^ j : Rat) ≤ 2 ^ 100 → -2 ^ 100 ≤ (m / 2 ^ j : Rat) →
    rnd (m / 2 ^ j) = m / 2 ^ j
  coarse : ∀ (m : Int) (j : Nat), -2 ^ p ≤ m → m ≤ 2 ^ p → (m * 2 ^ j : Rat) ≤ 2 ^ 100 → -2 ^ 100 ≤ (m * 2 ^ j : Rat) →
    rnd (m * 2 ^ j) = m * 2 ^ j

end LRU
