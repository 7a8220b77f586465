import Verif.Model.World
/-!
# Ordered iterators that outlive a swap or a move

An iterator object stores a position in a list (`_iterator`) and a pointer to a cache object (`_cache`). The list node may
move to another cache object (swap, move construction, move assignment); the pointer stays. `Model.Iterators` covers
the case in which the node still belongs to `*_cache`.
-/

set_option autoImplicit false

namespace LRU.Impl

variable {K V : Type} [KeyEqual K]

/-- `base-ordered-iterator.hpp` 285-287 `value()`, 278-281 `entry()`, 313-316 `_lookup()` of an iterator of a plain
cache: the position `q` is a node of the list of `owner`, `_cache` points to `target`. The key is read from the list node
and looked up in `target`; if it is not there the end iterator is dereferenced. `none`: undefined behaviour. -/
def valueVia (owner target : Cache K V) (q : Ptr) : Option V :=
  match owner.order.find? (fun l => l.addr == q) with
  | none => none
  | some l =>
    match owner.map.find? (fun n => n.addr == l.ref) with
    | none => none
    | some n => (target.map.find? (fun m => keq m.key n.key)).map (·.info.value)

end LRU.Impl
