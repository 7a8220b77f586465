import Verif.Model.Overloads
/-!
# Arguments that refer into the cache

The parameters `const Key&` and `const Value&` of the public calls may refer to a key or a value the cache itself stores,
as in `cache.insert(4, cache.lookup(1))`, `cache.erase(cache.front())` or `cache.insert(cache.begin(), cache.end())`.
`Model.Cache` takes the arguments as values. Here they are references, read each time the code reads them; by then the
call may have changed or destroyed what they refer to.
-/

set_option autoImplicit false

namespace LRU

/-- A `const Key&`: to an object outside of this cache, or to the key stored in the map node at an address. -/
inductive KeyRef (K : Type) where
  | object (k : K)
  | stored (p : Ptr)

/-- A `const Value&`: to an object outside of this cache, or to the value stored in the map node at an address. -/
inductive ValueRef (V : Type) where
  | object (v : V)
  | stored (p : Ptr)

/-- Calls with arguments passed by reference. -/
inductive RefOp (K V : Type) where
  | contains (k : KeyRef K) | find (k : KeyRef K) | lookup (k : KeyRef K) | erase (k : KeyRef K)
  | hasExpired (k : KeyRef K)
  | insert (k : KeyRef K) (v : ValueRef V) | emplace (k : KeyRef K) (v : ValueRef V)

namespace Impl

variable {K V : Type} [KeyEqual K] [DecidableEq K] (O : Oracle K V)

/-- Read through a key reference; undefined behaviour if the node is gone. -/
def readKey : KeyRef K → CM K V K
  | .object k => pure k
  | .stored p => do
    let n ← derefIt (some p)
    pure n.key

/-- Read through a value reference; undefined behaviour if the node is gone. -/
def readValue : ValueRef V → CM K V V
  | .object v => pure v
  | .stored p => do
    let n ← derefIt (some p)
    pure n.info.value

/-- `cache.hpp` 152-177 and `timed-cache.hpp` 197-228 `find(key)`: the key is read by `_map.find` and again by
`_register_hit` or `_register_miss`. -/
def findRef (k : KeyRef K) : CM K V (Option Ptr) := do
  let o ← getObs
  match ← mapFind (← readKey k) with
  | some n =>
    if ← hasExpiredInfo O n.info.time then do
      registerMiss O o (← readKey k)
      pure none
    else do
      registerHit O o (← readKey k) n.info.value
      moveToFront n.info.order
      setLast n.addr
      pure (some n.addr)
  | none => do
    registerMiss O o (← readKey k)
    pure none

/-- `base-cache.hpp` 786-798 `contains(key)`. -/
def containsRef (k : KeyRef K) : CM K V Bool := do
  let o ← getObs
  if ← lastIs (← readKey k) then
    if ← lastAccessedIsOk O then do
      let n ← lastNode
      registerHit O o (← readKey k) n.info.value
      pure true
    else pure false
  else do
    let it ← findRef O k
    pure it.isSome

/-- `base-cache.hpp` 811-852 `lookup(key)`. -/
def lookupRef (k : KeyRef K) : CM K V (Ptr × V) := do
  let o ← getObs
  if ← lastIs (← readKey k) then do
    let n ← valueForLastAccessed O
    registerHit O o (← readKey k) n.info.value
    pure (n.addr, n.info.value)
  else do
    match ← findRef O k with
    | none => M.throw .keyNotFound
    | some p => do
      let n ← entryU O (some p)
      pure (n.addr, n.info.value)

/-- `base-cache.hpp` 1097-1112 `erase(key)`: the key is read by the comparison with `_last_accessed` (1100) and by
`_map.find` (1105), and not after that. -/
def eraseRef (k : KeyRef K) : CM K V Bool := do
  if ← lastIs (← readKey k) then do
    let n ← lastNode
    eraseKeyInfo n
    pure true
  else do
    match ← mapFind (← readKey k) with
    | some n => do
      eraseIt (some n.addr)
      pure true
    | none => pure false

/-- `timed-cache.hpp` 276-279 `has_expired(key)`. -/
def hasExpiredRef (k : KeyRef K) : CM K V Bool := do
  match ← mapFind (← readKey k) with
  | none => pure false
  | some n => hasExpiredInfo O n.info.time

/-- `base-cache.hpp` 900-923 `insert(key, value)`: the key is read by `_map.find` (903). A new entry: the value is copied
into an `Information` (911), then key and `Information` into the map node; the eviction comes last (913). An update: the
entry is moved within `_order` before the value is assigned (1407-1413). -/
def insertRef (k : KeyRef K) (v : ValueRef V) : CM K V (Bool × Option Ptr) := do
  if (← readCapacity) = 0 then pure (false, none)
  else match ← mapFind (← readKey k) with
  | none => do
    let t ← insertionTime O
    attempt O .construct
    let v ← readValue v
    let k ← readKey k
    let p ← insertNode O k v t
    setLast p
    pure (true, some p)
  | some n => do
    moveToFront n.info.order
    let v ← readValue v
    tryAssign O n.addr v
    setLast n.addr
    pure (false, some n.addr)

/-- `base-cache.hpp` 1041-1064 and 1082-1087 `emplace` with lvalue arguments: a key is constructed first (1047), the value
after the search (1051, 1060). -/
def emplaceRef (k : KeyRef K) (v : ValueRef V) : CM K V (Bool × Option Ptr) := do
  if (← readCapacity) = 0 then pure (false, none)
  else do
    attempt O .construct
    let k ← readKey k
    match ← mapFind k with
    | none => do
      attempt O .construct
      let v ← readValue v
      let t ← insertionTime O
      let p ← insertNode O k v t
      setLast p
      pure (true, some p)
    | some n => do
      attempt O .construct
      let v ← readValue v
      moveToFrontAssign O n v
      setLast n.addr
      pure (false, some n.addr)

/-- Run a call with arguments passed by reference. -/
def stepRef : RefOp K V → CM K V (Res K V)
  | .contains k => ret (containsRef O k) .bool
  | .find k => ret (findRef O k) .pos
  | .lookup k => ret (lookupRef O k) (fun r => .ref r.1 r.2)
  | .erase k => ret (eraseRef k) .bool
  | .hasExpired k => ret (hasExpiredRef O k) .bool
  | .insert k v => ret (insertRef O k v) (fun r => .inserted r.1 r.2)
  | .emplace k v => ret (emplaceRef O k v) (fun r => .inserted r.1 r.2)

/-! ### Moving a stored value -/

/-- `Value(std::move(value))` for the value stored in the map node at `p`: what is left there is `mv` of it. -/
def takeValue (mv : V → V) (p : Ptr) : CM K V V := do
  let n ← derefIt (some p)
  assignValue n.addr (mv n.info.value)
  pure n.info.value

/-- `emplace(key, std::move(value))` where `value` refers to the value stored in the map node at `p`, for example
`cache.emplace(4, std::move(cache.lookup(1)))` (`base-cache.hpp` 1041-1064, 1082-1087; `utility.hpp` 47-51 forwards the
argument to the constructor). -/
def emplaceMove (mv : V → V) (k : KeyRef K) (p : Ptr) : CM K V (Bool × Option Ptr) := do
  if (← readCapacity) = 0 then pure (false, none)
  else do
    attempt O .construct
    let k ← readKey k
    match ← mapFind k with
    | none => do
      attempt O .construct
      let v ← takeValue mv p
      let t ← insertionTime O
      let p ← insertNode O k v t
      setLast p
      pure (true, some p)
    | some n => do
      attempt O .construct
      let v ← takeValue mv p
      moveToFrontAssign O n v
      setLast n.addr
      pure (false, some n.addr)

/-! ### Ranges of a cache inserted into the cache itself -/

/-- What the loop adds to `newly_inserted`. -/
def newly (r : Bool × Option Ptr) : Nat := if r.1 then 1 else 0

/-- The loop of `insert(begin, end)` (`base-cache.hpp` 940-948) for unordered iterators of the cache itself, which is also
what `cache.insert(cache)` runs (963-968), with an iteration budget. `begin->first` and `begin->second` are references
into the node (`base-unordered-iterator.hpp` 169-175). -/
def insertUnordered (end_ : UIt) (count : Nat) : Nat → UIt → CM K V Nat
  | 0, _ => M.diverge
  | fuel + 1, it =>
    if uEq it end_ then pure count
    else do
      let it ← uDeref it
      match it.entry with
      | none => M.ub
      | some p => do
        let r ← insertRef O (.stored p) (.stored p)
        let it ← uNext it
        insertUnordered end_ (count + newly r) fuel it

/-- The same for ordered iterators of the cache itself (`base-ordered-iterator.hpp` 272-274, 304-316). -/
def insertOrdered (end_ : OIt) (count : Nat) : Nat → OIt → CM K V Nat
  | 0, _ => M.diverge
  | fuel + 1, it =>
    if oEq it end_ then pure count
    else do
      let it ← oDeref it
      match it.entry with
      | none => M.ub
      | some p => do
        let r ← insertRef O (.stored p) (.stored p)
        let it ← oNext it
        insertOrdered end_ (count + newly r) fuel it

/-- The loop of `insert(Range&&)` (`base-cache.hpp` 980-989) for `cache.insert(std::move(cache))`: the keys are `const`
and copied, the values moved. -/
def insertMoved (mv : V → V) (count : Nat) : Nat → UIt → CM K V Nat
  | 0, _ => M.diverge
  | fuel + 1, it =>
    if uEq it { pos := none } then pure count
    else do
      let it ← uDeref it
      match it.entry with
      | none => M.ub
      | some p => do
        let r ← emplaceMove O mv (.stored p) p
        let it ← uNext it
        insertMoved mv (count + newly r) fuel it

end Impl

end LRU
