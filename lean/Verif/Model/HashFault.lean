import Verif.Model.Ops
/-!
# Hash functions and key comparisons that throw

`HashFunction` and `KeyEqual` are template parameters (`cache.hpp` 65-68): user code, which may throw. `Model.Cache` lets them
succeed always. Here every operation of `_map` that searches for a key (`find`, `emplace`, `erase(key)`) may fail, and every
comparison of a key with `_last_accessed`.

Such an operation has no effect if it throws. For `find` and `erase(key)` there is nothing to undo, the search comes first. For
`emplace` the C++ standard promises it for exceptions of `KeyEqual` only ([unord.req.except]); the implementations of the
standard library keep it for the hash function too, which they apply once, before they link the new node.

`_map.erase(iterator)` and `_map.clear()` call neither function. The comparison with `_last_accessed` is `noexcept`
(`last-accessed.hpp` 122-152): an exception there terminates the program.

The member functions are those of `Model.Cache` and `Model.Iterators`, step by step; with functions that never throw they are
the same (`Proofs.HashFault`). Not modelled: the map of monitored keys in `Statistics`, and copying, assigning and comparing
caches.
-/

set_option autoImplicit false

namespace LRU

/-- Which searches fail, by number, and which comparisons with `_last_accessed`. -/
structure Faults where
  search : Nat → Bool
  compare : Nat → Bool

/-- A cache with its environment, and how often the user's functions have been called (a search counts once). -/
structure FSt (K V : Type) where
  s : St (Cache K V) K V
  uses : Nat

namespace Impl

variable {K V : Type} [KeyEqual K] [DecidableEq K] (O : Oracle K V) (F : Faults)

/-- Bodies of member functions that may be interrupted. -/
abbrev FM (K V α : Type) := M (FSt K V) α

/-- Run code that calls neither function. -/
def onF {α : Type} (m : CM K V α) : FM K V α := fun t =>
  match m t.s with
  | .ok a s => .ok a ⟨s, t.uses⟩
  | .throw e s => .throw e ⟨s, t.uses⟩
  | .ub => .ub
  | .terminate => .terminate
  | .diverge => .diverge

/-- Search `_map` for a key. -/
def searchF : FM K V Unit := fun t =>
  if F.search t.uses then .throw .hash ⟨t.s, t.uses + 1⟩ else .ok () ⟨t.s, t.uses + 1⟩

/-- Compare a key with the last accessed one. -/
def compareF : FM K V Unit := fun t =>
  if F.compare t.uses then .throw .hash ⟨t.s, t.uses + 1⟩ else .ok () ⟨t.s, t.uses + 1⟩

/-- `_map.find(key)`. -/
def mapFindF (k : K) : FM K V (Option (MapNode K V)) := do
  searchF F
  onF (mapFind k)

/-- `_map.erase(key)`. -/
def mapEraseKeyF (k : K) : FM K V Unit := do
  searchF F
  onF (mapEraseKey k)

/-- `_map.emplace(key, information)`. (Whether the node is allocated or the key hashed first makes no difference here.) -/
def mapEmplaceF (k : K) (v : V) (time : Int) : FM K V Ptr := do
  searchF F
  onF (mapEmplace O k v time)

/-- `last-accessed.hpp` 122-126 `operator==(last_accessed, key)`, a `noexcept` function; nothing else in it can throw. -/
def lastIsF (k : K) : FM K V Bool := do
  match ← onF getLast with
  | none => pure false
  | some p => do
    M.noexcept (compareF F)
    let n ← onF (deref p)
    pure (keq k n.key)

/-- `base-cache.hpp` 1424-1426, 1441-1443. -/
def invalidateIfF (k : K) : FM K V Unit := do
  if ← lastIsF F k then onF lastInvalidate else pure ()

/-- `base-cache.hpp` 1423-1430 `_erase(MapConstIterator)`. -/
def eraseItF (it : Option Ptr) : FM K V Unit := do
  let n ← onF (derefIt it)
  invalidateIfF F n.key
  onF (orderErase n.info.order)
  onF (mapEraseAt n.addr)

/-- `base-cache.hpp` 1440-1451 `_erase(key, information)`. -/
def eraseKeyInfoF (n : MapNode K V) : FM K V Unit := do
  invalidateIfF F n.key
  onF (orderErase n.info.order)
  mapEraseKeyF F n.key

/-- `base-cache.hpp` 1416-1418 `_erase_lru`. -/
def eraseLruF : FM K V Unit := do
  let l ← onF orderFront
  let k ← onF (keyOf l)
  let it ← mapFindF F k
  eraseItF F (it.map (·.addr))

/-- `base-cache.hpp` 1555-1559 `_evict_lru_for(key)`. -/
def evictLruForF (p : Ptr) : FM K V Unit := do
  let l ← onF orderFront
  let k ← onF (keyOf l)
  mapEraseKeyF F k
  onF (setSelf fun c => { c with
    order := match c.order with
      | [] => []
      | l :: r => { l with ref := p } :: r })
  onF (moveToFront (some l.addr))

/-- `base-cache.hpp` 1543-1547. -/
def evictOrAppendF (p : Ptr) : FM K V Unit := do
  let n ← onF size
  let cap ← onF readCapacity
  if n > cap then evictLruForF F p else onF (orderAppend O p)

/-- `base-cache.hpp` 1542-1550 `_insert_new_key(key)`. -/
def insertNewKeyF (p : Ptr) : FM K V Ptr := do
  evictOrAppendF O F p
  let l ← onF orderBack
  pure l.addr

/-- `base-cache.hpp` 911-914 and 1051-1053. -/
def insertNodeF (k : K) (v : V) (time : Int) : FM K V Ptr := do
  let p ← mapEmplaceF O F k v time
  let q ← insertNewKeyF O F p
  onF (setOrder p q)
  pure p

/-- `cache.hpp` 152-177 and `timed-cache.hpp` 197-228 `find(key)`. -/
def findF (k : K) : FM K V (Option Ptr) := do
  let o ← onF getObs
  match ← mapFindF F k with
  | some n =>
    if ← onF (hasExpiredInfo O n.info.time) then do
      onF (registerMiss O o k)
      pure none
    else do
      onF (registerHit O o k n.info.value)
      onF (moveToFront n.info.order)
      onF (setLast n.addr)
      pure (some n.addr)
  | none => do
    onF (registerMiss O o k)
    pure none

/-- `base-cache.hpp` 786-798 `contains(key)`. -/
def containsF (k : K) : FM K V Bool := do
  let o ← onF getObs
  if ← lastIsF F k then
    if ← onF (lastAccessedIsOk O) then do
      let n ← onF lastNode
      onF (registerHit O o k n.info.value)
      pure true
    else pure false
  else do
    let it ← findF O F k
    pure it.isSome

/-- `base-cache.hpp` 811-852 `lookup(key)` and 879-886 `operator[]`. -/
def lookupF (k : K) : FM K V (Ptr × V) := do
  let o ← onF getObs
  if ← lastIsF F k then do
    let n ← onF (valueForLastAccessed O)
    onF (registerHit O o k n.info.value)
    pure (n.addr, n.info.value)
  else do
    match ← findF O F k with
    | none => M.throw .keyNotFound
    | some p => do
      let n ← onF (entryU O (some p))
      pure (n.addr, n.info.value)

/-- `base-cache.hpp` 900-923 `insert(key, value)`. -/
def insertF (k : K) (v : V) : FM K V (Bool × Option Ptr) := do
  if (← onF readCapacity) = 0 then pure (false, none)
  else match ← mapFindF F k with
  | none => do
    let time ← onF (insertionTime O)
    onF (attempt O .construct)
    let p ← insertNodeF O F k v time
    onF (setLast p)
    pure (true, some p)
  | some n => do
    onF (moveToFrontAssign O n v)
    onF (setLast n.addr)
    pure (false, some n.addr)

/-- `base-cache.hpp` 1041-1064 and 1082-1087 `emplace`. -/
def emplaceF (k : K) (v : V) : FM K V (Bool × Option Ptr) := do
  if (← onF readCapacity) = 0 then pure (false, none)
  else do
    onF (attempt O .construct)
    match ← mapFindF F k with
    | none => do
      onF (attempt O .construct)
      let time ← onF (insertionTime O)
      let p ← insertNodeF O F k v time
      onF (setLast p)
      pure (true, some p)
    | some n => do
      onF (attempt O .construct)
      onF (moveToFrontAssign O n v)
      onF (setLast n.addr)
      pure (false, some n.addr)

/-- `base-cache.hpp` 940-968, 1003-1005: `insert` for ranges. -/
def insertRangeF : List (K × V) → FM K V Nat
  | [] => pure 0
  | (k, v) :: rest => do
    let r ← insertF O F k v
    let n ← insertRangeF rest
    pure ((if r.1 then 1 else 0) + n)

/-- `base-cache.hpp` 980-989 `insert(Range&&)`. -/
def insertRangeMoveF : List (K × V) → FM K V Nat
  | [] => pure 0
  | (k, v) :: rest => do
    let r ← emplaceF O F k v
    let n ← insertRangeMoveF rest
    pure ((if r.1 then 1 else 0) + n)

/-- `base-cache.hpp` 1097-1112 `erase(key)`. -/
def eraseF (k : K) : FM K V Bool := do
  if ← lastIsF F k then do
    let n ← onF lastNode
    eraseKeyInfoF F n
    pure true
  else do
    match ← mapFindF F k with
    | some n => do
      eraseItF F (some n.addr)
      pure true
    | none => pure false

/-- `base-cache.hpp` 1118-1126 `erase(UnorderedConstIterator)`. -/
def eraseUF (it : Option Ptr) : FM K V Unit :=
  match it with
  | none => M.throw .invalidIterator
  | some p => eraseItF F (some p)

/-- `while (size() > n) _erase_lru();` -/
def eraseLruWhileF (n : Nat) : Nat → FM K V Unit
  | 0 => M.diverge
  | fuel + 1 => do
    if (← onF size) > n then do
      eraseLruF F
      eraseLruWhileF n fuel
    else pure ()

/-- `base-cache.hpp` 1156-1166 `shrink(new_size)`. -/
def shrinkF (n : Nat) : FM K V Unit := do
  let sz ← onF size
  if n ≥ sz then pure ()
  else if n = 0 then onF clear
  else eraseLruWhileF F n (sz + 1)

/-- `base-cache.hpp` 1184-1190 `capacity(new_capacity)`. -/
def setCapacityF (n : Nat) : FM K V Unit := do
  let sz ← onF size
  eraseLruWhileF F n (sz + 1)
  onF (assignCapacity n)

/-- `base-cache.hpp` 541-545 `operator=(const Range&)`, 564-566 `operator=(InitializerList)`. -/
def assignRangeF (l : List (K × V)) : FM K V Unit := do
  onF (clearAndIncreaseCapacity l.length)
  let _ ← insertRangeF O F l
  pure ()

/-- `base-cache.hpp` 554-558 `operator=(Range&&)`. -/
def assignRangeMoveF (l : List (K × V)) : FM K V Unit := do
  onF (clearAndIncreaseCapacity l.length)
  let _ ← insertRangeMoveF O F l
  pure ()

/-- `timed-cache.hpp` 234-241 `all_expired()`. -/
def allExpiredF : FM K V Bool := do
  if ← onF isEmpty then pure true
  else do
    let l ← onF orderBack
    let k ← onF (keyOf l)
    match ← mapFindF F k with
    | none => M.ub
    | some n => onF (hasExpiredInfo O n.info.time)

/-- The loop of `timed-cache.hpp` 258-269. -/
def clearExpiredLoopF (count : Nat) : Nat → FM K V Nat
  | 0 => M.diverge
  | fuel + 1 => do
    match ← onF orderFirst with
    | none => pure count
    | some l => do
      let k ← onF (keyOf l)
      match ← mapFindF F k with
      | none => M.ub
      | some n =>
        if ← onF (hasExpiredInfo O n.info.time) then do
          eraseItF F (some n.addr)
          clearExpiredLoopF (count + 1) fuel
        else pure count

/-- `timed-cache.hpp` 247-272 `clear_expired()`. -/
def clearExpiredF : FM K V Nat := do
  if ← onF isEmpty then pure 0
  else do
    let n ← onF size
    clearExpiredLoopF O F 0 (n + 1)

/-- `timed-cache.hpp` 276-279 `has_expired(key)`, a `noexcept` function. -/
def hasExpiredF (k : K) : FM K V Bool := M.noexcept do
  match ← mapFindF F k with
  | none => pure false
  | some n => onF (hasExpiredInfo O n.info.time)

/-- `base-ordered-iterator.hpp` 313-316 `_lookup()`. -/
def oLookupF (pos : Option Ptr) : FM K V Ptr := do
  let k ← onF (keyAt pos)
  match ← mapFindF F k with
  | none => M.ub
  | some n => pure n.addr

/-- `timed-cache.hpp` 284-290 `has_expired(OrderedConstIterator)`, a `noexcept` function. -/
def hasExpiredOF (pos : Option Ptr) : FM K V Bool := M.noexcept do
  match pos with
  | none => pure false
  | some p => do
    let q ← oLookupF F (some p)
    let n ← onF (derefIt (some q))
    match ← mapFindF F n.key with
    | none => M.ub
    | some m => onF (hasExpiredInfo O m.info.time)

/-- `base-cache.hpp` 741-743 and `timed-cache.hpp` 311-315 `is_valid(OrderedConstIterator)`. -/
def isValidOF (pos : Option Ptr) : FM K V Bool := do
  match pos with
  | none => pure false
  | some p =>
    match ← onF getKind with
    | .basic => pure true
    | .timed .. => do
      let e ← hasExpiredOF O F (some p)
      pure (!e)

/-- `base-cache.hpp` 766-770 and `timed-cache.hpp` 331-336 `throw_if_invalid(OrderedConstIterator)`. -/
def throwIfInvalidOF (pos : Option Ptr) : FM K V Unit := do
  match pos with
  | none => M.throw .invalidIterator
  | some p =>
    match ← onF getKind with
    | .basic => pure ()
    | .timed .. => do
      if ← hasExpiredOF O F (some p) then M.throw .keyExpired else pure ()

/-- `base-ordered-iterator.hpp` 304-310 `_maybe_lookup()`. -/
def oDerefF (it : OIt) : FM K V OIt :=
  match it.entry with
  | some _ => pure it
  | none => do
    let p ← oLookupF F it.pos
    pure { it with entry := some p }

/-- `base-ordered-iterator.hpp` 278-281 `entry()`. -/
def oEntryF (it : OIt) : FM K V OIt := do
  throwIfInvalidOF O F it.pos
  oDerefF F it

/-- `base-ordered-iterator.hpp` 285-287 `value()`. -/
def oValueF (it : OIt) : FM K V V := do
  let it ← oEntryF O F it
  let n ← onF (derefIt it.entry)
  pure n.info.value

/-- `base-ordered-iterator.hpp` 291-295 `key()`. -/
def oKeyF (pos : Option Ptr) : FM K V K := do
  throwIfInvalidOF O F pos
  onF (keyAt pos)

/-- `base-cache.hpp` 1133-1139 `erase(OrderedConstIterator)`. -/
def eraseOF (pos : Option Ptr) : FM K V Unit :=
  match pos with
  | none => M.throw .invalidIterator
  | some p => do
    let k ← oKeyF O F (some p)
    let n ← mapFindF F k
    eraseItF F (n.map (·.addr))

/-- Run a public call; the calls not listed here call neither function. -/
def fstep : Op K V → FM K V (Res K V)
  | .contains k => ret (containsF O F k) .bool
  | .find k => ret (findF O F k) .pos
  | .lookup k => ret (lookupF O F k) (fun r => .ref r.1 r.2)
  | .insert k v => ret (insertF O F k v) (fun r => .inserted r.1 r.2)
  | .emplace k v => ret (emplaceF O F k v) (fun r => .inserted r.1 r.2)
  | .insertRange l => ret (insertRangeF O F l) .nat
  | .insertRangeMove l => ret (insertRangeMoveF O F l) .nat
  | .assignRange l => ret (assignRangeF O F l) (fun _ => .unit)
  | .assignRangeMove l => ret (assignRangeMoveF O F l) (fun _ => .unit)
  | .erase k => ret (eraseF F k) .bool
  | .eraseU pos => ret (eraseUF F pos) (fun _ => .unit)
  | .eraseO pos => ret (eraseOF O F pos) (fun _ => .unit)
  | .shrink n => ret (shrinkF F n) (fun _ => .unit)
  | .setCapacity n => ret (setCapacityF F n) (fun _ => .unit)
  | .allExpired => ret (allExpiredF O F) .bool
  | .clearExpired => ret (clearExpiredF O F) .nat
  | .hasExpired k => ret (hasExpiredF O F k) .bool
  | .hasExpiredO pos => ret (hasExpiredOF O F pos) .bool
  | .isValidO pos => ret (isValidOF O F pos) .bool
  | .oKey pos => ret (oKeyF O F pos) .key
  | .oValue pos => ret (oValueF O F { pos := pos }) .value
  | op => onF (step O op)

end Impl

end LRU
