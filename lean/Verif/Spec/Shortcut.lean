import Verif.Spec.Reorder
/-!
# A cache without the last-accessed shortcut
-/

set_option autoImplicit false
set_option linter.unusedSectionVars false

namespace LRU

variable {K V : Type}

/-- The same state, with `_last_accessed` made invalid: the next call cannot take the shortcut. -/
def forget (s : St (Cache K V) K V) : St (Cache K V) K V := { s with c := { s.c with last := none } }

/-- Two states that differ in nothing but `_last_accessed` and the order of the hash table: same list of entries, same
nodes, same statistics, callbacks and everything shared. -/
structure SameButLast (s t : St (Cache K V) K V) : Prop where
  order : t.c.order = s.c.order
  map : t.c.map.Perm s.c.map
  elements : elements t.c = elements s.c
  capacity : t.c.capacity = s.c.capacity
  kind : t.c.kind = s.c.kind
  obs : t.c.obs = s.c.obs
  shared : t.g = s.g

variable [KeyEqual K] [DecidableEq K]

/-- Calls on a cache whose `_last_accessed` is made invalid before every call: no call is ever served by the shortcut. -/
inductive RunWithout (O : Oracle K V) (s : St (Cache K V) K V) : List (Call K V) → St (Cache K V) K V → Prop
  | nil : RunWithout O s [] s
  | call {h s' s'' op res} : RunWithout O s h s' → Performs O op (forget s') res s'' →
      RunWithout O s (⟨op, res, forget s', s''⟩ :: h) s''

/-- What was called and what it gave. -/
def Call.told (c : Call K V) : Op K V × Except Err (Res K V) := (c.op, c.res)

end LRU
