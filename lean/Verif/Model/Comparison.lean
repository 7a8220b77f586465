import Verif.Model.World
/-!
# Comparing caches with the program's own comparisons

`base-cache.hpp` 594-618, `information.hpp` 101-118, `timed-information.hpp` 94-107.

`Impl.equal` (`Model.World`) compares keys and values by equality. In C++ the program supplies `==` for keys and `!=` for
values: they need not be reflexive (`NaN != NaN`), may identify different values, and may throw. The comparison of caches
calls them at three places, of which only one is in the library: `std::unordered_map` compares elements as pairs, and
implementations differ in which of the two elements is the left operand (libstdc++: that of the right map; libc++: that of
the left one).
-/

set_option autoImplicit false

namespace LRU

/-- The comparisons of a program; `none`: the call throws. -/
structure Comparison (K V : Type) where
  /-- `==` of keys -/
  keyEq : K → K → Option Bool
  /-- `!=` of values -/
  valueNe : V → V → Option Bool
  /-- `std::unordered_map::operator==` has the elements of its right operand on the left -/
  otherFirst : Bool

namespace Impl

variable {K V : Type} [KeyEqual K] (C : Comparison K V)

/-- A comparison supplied by the program. -/
def compare {σ : Type} : Option Bool → M σ Bool
  | none => M.throw .user
  | some r => pure r

/-- `information.hpp` 101-109 and `timed-information.hpp` 94-97 `operator==`, of two different objects. -/
def infoEqBy {σ : Type} (kind : Kind) (a b : Info V) : M σ Bool := do
  let ne ← compare (C.valueNe a.value b.value)
  if ne then pure false else
    match kind with
    | .basic => pure true
    | .timed .. => pure (decide (a.time = b.time))

/-- `operator==` of `std::pair`. -/
def pairEqBy {σ : Type} (kind : Kind) (a b : MapNode K V) : M σ Bool := do
  let eq ← compare (C.keyEq a.key b.key)
  if eq then infoEqBy C kind a.info b.info else pure false

/-- Compare an element with the element of the other map that was found for it. -/
def elementEqBy {σ : Type} (kind : Kind) (mine other : MapNode K V) : M σ Bool :=
  if C.otherFirst then pairEqBy C kind other mine else pairEqBy C kind mine other

/-- The loop of `std::unordered_map::operator==`: every element has to be found in the other map, and be equal to what is
found. -/
def mapEqLoop {σ : Type} (kind : Kind) (other : List (MapNode K V)) : List (MapNode K V) → M σ Bool
  | [] => pure true
  | n :: rest =>
    match other.find? (fun m => keq m.key n.key) with
    | none => pure false
    | some m => do
      let eq ← elementEqBy C kind n m
      if eq then mapEqLoop kind other rest else pure false

/-- `_map == other._map`. -/
def mapEqBy {σ : Type} (a b : Cache K V) : M σ Bool :=
  if a.map.length = b.map.length then mapEqLoop C a.kind b.map a.map else pure false

/-- The key a list node refers to. -/
def keyFor {σ : Type} (c : Cache K V) (l : ListNode) : M σ K :=
  match c.map.find? (fun n => n.addr == l.ref) with
  | none => M.ub
  | some n => pure n.key

/-- `std::equal` of the two lists (`base-cache.hpp` 598-605). -/
def ordersEqBy {σ : Type} (a b : Cache K V) : List ListNode → List ListNode → M σ Bool
  | [], [] => pure true
  | x :: l, y :: m => do
    let k ← keyFor a x
    let k' ← keyFor b y
    let eq ← compare (C.keyEq k k')
    if eq then ordersEqBy a b l m else pure false
  | _, _ => pure false

/-- `base-cache.hpp` 594-607 `operator==`, `noexcept`. -/
def equalBy (i j : Nat) : M (World K V) Bool := M.noexcept do
  let a ← getCache i
  let b ← getCache j
  if i = j then pure true else do
    let eq ← mapEqBy C a b
    if eq then ordersEqBy C a b a.order b.order else pure false

/-- `base-cache.hpp` 616-618 `operator!=`, `noexcept`. -/
def notEqualBy (i j : Nat) : M (World K V) Bool := M.noexcept do
  let eq ← equalBy C i j
  pure !eq

end Impl

end LRU
