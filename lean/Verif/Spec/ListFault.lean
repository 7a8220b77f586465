import Verif.Spec.Observe
/-!
# Failing allocations of list nodes

`_insert_new_key` (`base-cache.hpp` 1542-1550) adds a list node after `insert` and `emplace` have added the map node.
-/

set_option autoImplicit false

namespace LRU

variable {K V : Type}

/-- The same environment, except that list nodes can always be allocated. -/
def Oracle.withLists (O : Oracle K V) : Oracle K V :=
  { O with fails := fun site n => if site = .listNode then false else O.fails site n }

/-- `c'` is `c` with a map node `n` for `k` and `v` that has no list node. -/
structure Orphaned (k : K) (v : V) (n : MapNode K V) (c c' : Cache K V) : Prop where
  key : n.key = k
  value : n.info.value = v
  unlinked : n.info.order = none
  map : c'.map.Perm (n :: c.map)
  order : c'.order = c.order
  last : c'.last = c.last
  capacity : c'.capacity = c.capacity
  kind : c'.kind = c.kind
  obs : c'.obs = c.obs

end LRU
