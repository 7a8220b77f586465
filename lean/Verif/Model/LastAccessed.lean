import Verif.Model.Cache
/-!
# The class `LastAccessed`

`last-accessed.hpp` 62-249. `Model.Cache` keeps one address for `_last_accessed`; here the class has its own three members. Keys
and informations live in map nodes (or stand alone, like the objects in `tests/last-accessed-test.cpp`; then the other half of the
node is not used). `Key&` and `InformationType&` results are given by what they refer to. The members that are `const` and those
that are not do the same. `_key_equal` is the type's `KeyEqual` (see `Model.Hash` for function objects).
-/

set_option autoImplicit false

namespace LRU

variable {K V : Type} [KeyEqual K] [DecidableEq K]

/-- `last-accessed.hpp` 239-249 the members; `none`: `nullptr`. -/
structure LastAccessed where
  key : Option Ptr
  information : Option Ptr
  isValid : Bool
  deriving DecidableEq

namespace LastAccessed

/-- Follow a pointer. -/
def follow : Option Ptr → Impl.CM K V (MapNode K V)
  | none => M.ub
  | some p => Impl.deref p

/-- 70-75 the default constructor. -/
def empty : LastAccessed := ⟨none, none, false⟩

/-- 82-89 the constructor from a key and an information, given by the addresses of the nodes that hold them. -/
def ofRefs (key information : Ptr) : LastAccessed := ⟨some key, some information, true⟩

/-- 96-100 the constructor from an iterator. -/
def ofIterator (it : Option Ptr) : Impl.CM K V LastAccessed := do
  let n ← Impl.derefIt it
  pure (ofRefs n.addr n.addr)

/-- 107-114 assignment of an iterator. -/
def assign (_ : LastAccessed) (it : Option Ptr) : Impl.CM K V LastAccessed := do
  let n ← Impl.derefIt it
  pure ⟨some n.addr, some n.addr, true⟩

/-- 174-183 `key()`. The `assert` is a precondition. -/
def keyOf (l : LastAccessed) : Impl.CM K V K := do
  if l.isValid then
    let n ← follow l.key
    pure n.key
  else M.ub

/-- 186-195 `information()`. -/
def informationOf (l : LastAccessed) : Impl.CM K V (Info V) := do
  if l.isValid then
    let n ← follow l.information
    pure n.info
  else M.ub

/-- 198-201 `iterator()`. -/
def iteratorOf (l : LastAccessed) : Impl.CM K V (Option Ptr) := do
  if l.isValid then
    let n ← follow l.information
    pure n.info.order
  else M.ub

/-- 204-213 `value()`. -/
def valueOf (l : LastAccessed) : Impl.CM K V V := do
  if l.isValid then
    let n ← follow l.information
    pure n.info.value
  else M.ub

/-- 122-132 `last_accessed == key`, `key == last_accessed`. -/
def eqKey (l : LastAccessed) (k : K) : Impl.CM K V Bool := do
  if !l.isValid then pure false
  else do
    let k' ← l.keyOf
    pure (keq k k')

/-- 140-152 `last_accessed == iterator`, `iterator == last_accessed`: `iterator->first` is evaluated in any case. -/
def eqIterator (l : LastAccessed) (it : Option Ptr) : Impl.CM K V Bool := do
  let n ← Impl.derefIt it
  l.eqKey n.key

/-- 160-171 `last_accessed != key`. -/
def neKey (l : LastAccessed) (k : K) : Impl.CM K V Bool := do
  let b ← l.eqKey k
  pure (!b)

/-- 160-171 `last_accessed != iterator`. -/
def neIterator (l : LastAccessed) (it : Option Ptr) : Impl.CM K V Bool := do
  let b ← l.eqIterator it
  pure (!b)

/-- 227-231 `invalidate()`. -/
def invalidate (_ : LastAccessed) : LastAccessed := ⟨none, none, false⟩

end LastAccessed

end LRU
