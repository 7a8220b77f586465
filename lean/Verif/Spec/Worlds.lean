import Verif.Spec.Observe
import Verif.Model.Held
/-!
# Vocabulary for swap, move, copy and comparison
-/

set_option autoImplicit false

namespace LRU

variable {K V : Type}

/-- What `==` is to compare: key and value, for timed caches also the insertion time. -/
def compared (kind : Kind) (n : MapNode K V) : K × V × Option Int :=
  (n.key, n.info.value, match kind with | .basic => none | .timed .. => some n.info.time)

/-- `d` holds what `c` held: the very same elements (same address, key, value and time) in the same order, at the same
iterator positions, and the same capacity and class (for timed caches: time to live). -/
structure SameContents (c d : Cache K V) : Prop where
  elements : elements d = elements c
  positions : ∀ q x, At d q x ↔ At c q x
  capacity : d.capacity = c.capacity
  kind : d.kind = c.kind

/-- What an element stores. -/
def content (n : MapNode K V) : K × V × Int := (n.key, n.info.value, n.info.time)

/-- `c` is a copy of `b` made in the program state `w`: it holds equal entries in the same order in nodes of its own, its
recency list refers to its own nodes, and it has the capacity, class and observers of `b`. -/
structure IsCopy (w : World K V) (b c : Cache K V) : Prop where
  entries : (elements c).map content = (elements b).map content
  complete : c.map.length = (elements c).length ∧ c.order.length = (elements c).length
  capacity : c.capacity = b.capacity
  kind : c.kind = b.kind
  obs : c.obs = b.obs
  own : ∀ l ∈ c.order, ∃ n ∈ c.map, n.addr = l.ref
  fresh : ∀ n ∈ c.map, ∀ (k : Nat) (d : Cache K V), w.caches[k]? = some (some d) → ∀ m ∈ d.map, m.addr ≠ n.addr

/-- The steps of a program that put something else into the cache object `i` or take it away (calls on cache `i` are not
among them). -/
def WOp.replaces (i : Nat) : WOp K V → Bool
  | .destroy j => j == i
  | .swap j k | .swapBase j k => j == i || k == i
  | .moveCtor j => j == i
  | .moveAssign j k => j == i || k == i
  | .copyAssign j _ => j == i
  | _ => false

end LRU
