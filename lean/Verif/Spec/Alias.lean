import Verif.Model.Alias
import Verif.Spec.Positions
/-!
# What references into a cache refer to
-/

set_option autoImplicit false

namespace LRU

variable {K V : Type}

/-- The key a reference denotes in a cache. -/
def KeyRef.Denotes (c : Cache K V) : KeyRef K → K → Prop
  | .object k', k => k' = k
  | .stored p, k => ∃ x ∈ elements c, x.addr = p ∧ x.key = k

/-- The value a reference denotes in a cache. -/
def ValueRef.Denotes (c : Cache K V) : ValueRef V → V → Prop
  | .object v', v => v' = v
  | .stored p, v => ∃ x ∈ elements c, x.addr = p ∧ x.info.value = v

/-- `op` is the same call as `r`, given copies of what the arguments of `r` denote. -/
inductive RefOp.Copied (c : Cache K V) : RefOp K V → Op K V → Prop
  | contains {a k} : a.Denotes c k → Copied c (.contains a) (.contains k)
  | find {a k} : a.Denotes c k → Copied c (.find a) (.find k)
  | lookup {a k} : a.Denotes c k → Copied c (.lookup a) (.lookup k)
  | erase {a k} : a.Denotes c k → Copied c (.erase a) (.erase k)
  | hasExpired {a k} : a.Denotes c k → Copied c (.hasExpired a) (.hasExpired k)
  | insert {a k b v} : KeyRef.Denotes c a k → ValueRef.Denotes c b v → Copied c (.insert a b) (.insert k v)
  | emplace {a k b v} : KeyRef.Denotes c a k → ValueRef.Denotes c b v → Copied c (.emplace a b) (.emplace k v)

/-- The key argument of a call. -/
def RefOp.key : RefOp K V → KeyRef K
  | .contains k | .find k | .lookup k | .erase k | .hasExpired k | .insert k _ | .emplace k _ => k

/-- The unordered iterator to the first node of a list of nodes (past the end, if there is none). -/
def firstOf (l : List (MapNode K V)) : Impl.UIt := { pos := (l.map (·.addr)).head? }

end LRU
