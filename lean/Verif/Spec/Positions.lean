import Verif.Spec.Observe
/-!
# Iterator positions
-/

set_option autoImplicit false

namespace LRU

variable {K V : Type}

/-- The ordered iterator to the entry of rank `i` (0: least recently used): the address of the `i`-th node of
`_order`, and `none` (past the end) from rank `size()` on. -/
def position (c : Cache K V) (i : Nat) : Option Ptr := c.order[i]?.map (·.addr)

/-- `n` applications of an iterator operation (`oNext`, `oPrev`) lead from position `p` to position `q`; none of them
changes the state. -/
inductive Walk [KeyEqual K] [DecidableEq K] (O : Oracle K V) (f : Option Ptr → Op K V) (s : St (Cache K V) K V) :
    Nat → Option Ptr → Option Ptr → Prop
  | done {p} : Walk O f s 0 p p
  | move {n p q r} : Returns O (f p) s (.pos q) s → Walk O f s n q r → Walk O f s (n + 1) p r

/-- The ordered iterator `o` and the unordered iterator `u` denote the same entry, or are both past the end. -/
def SamePlace (c : Cache K V) (o u : Option Ptr) : Prop :=
  (o = none ∧ u = none) ∨ ∃ q x, o = some q ∧ u = some x.addr ∧ At c q x

/-- The ordered iterator at `o` is valid: past the end, or at an entry. -/
def ValidO (c : Cache K V) (o : Option Ptr) : Prop := o = none ∨ ∃ q x, o = some q ∧ At c q x

/-- The unordered iterator at `u` is valid: past the end, or at an entry. -/
def ValidU (c : Cache K V) (u : Option Ptr) : Prop := u = none ∨ ∃ x ∈ elements c, u = some x.addr

end LRU
