import Verif.Model.Types
/-!
# `BaseCache`, `Cache` and `TimedCache`: members working on a single cache

`base-cache.hpp`, `cache.hpp`, `timed-cache.hpp`, `last-accessed.hpp`.
`LRU::Cache` and `LRU::TimedCache` differ in `Kind`; virtual functions dispatch on it.
A map iterator is the address of a map node (`none`: `_map.end()`); a list iterator is the address of a
list node (`none`: singular).
-/

namespace LRU.Impl

variable {K V : Type} [KeyEqual K] [DecidableEq K] (O : Oracle K V)

/-- Bodies of member functions of a cache. -/
abbrev CM (K V α : Type) := M (St (Cache K V) K V) α

/-! ### Access to the data structures -/

/-- Which class the cache is an instance of, with `_time_to_live`. -/
def getKind : CM K V Kind := fun s => .ok s.c.kind s

/-- `_stats` and `_callback_manager`. -/
def getObs : CM K V Obs := fun s => .ok s.c.obs s

/-- The pointer in `_last_accessed`, if valid. -/
def getLast : CM K V (Option Ptr) := fun s => .ok s.c.last s

/-- The first node of `_order`, if any. -/
def orderFirst : CM K V (Option ListNode) := fun s => .ok s.c.order.head? s

/-- The last node of `_order`, if any. -/
def orderLast : CM K V (Option ListNode) := fun s => .ok s.c.order.getLast? s

/-- The addresses of the nodes of `_order`, in order. -/
def orderAddrs : CM K V (List Ptr) := fun s => .ok (s.c.order.map (·.addr)) s

/-- Assign to the cache's members. -/
def setSelf (f : Cache K V → Cache K V) : CM K V Unit := M.modify fun s => { s with c := f s.c }

/-- `_map.find(key)`. -/
def mapFind (k : K) : CM K V (Option (MapNode K V)) := fun s =>
  .ok (s.c.map.find? (fun n => keq n.key k)) s

/-- Follow an address to a map node. The node may belong to this cache or to another live one;
if no node lives there this is undefined behaviour. -/
def deref (p : Ptr) : CM K V (MapNode K V) := fun s =>
  match s.c.map.find? (fun n => n.addr == p) with
  | some n => .ok n s
  | none =>
    match s.g.ext.find? (fun n => n.addr == p) with
    | some n => .ok n s
    | none => .ub

/-- Dereference a map iterator of this cache; `end()` or an iterator to an erased node is undefined
behaviour. -/
def derefIt : Option Ptr → CM K V (MapNode K V)
  | none => M.ub
  | some p => fun s =>
    match s.c.map.find? (fun n => n.addr == p) with
    | some n => .ok n s
    | none => .ub

/-- Dereference a list iterator of this cache. -/
def derefOrder (p : Ptr) : CM K V ListNode := fun s =>
  match s.c.order.find? (fun n => n.addr == p) with
  | some n => .ok n s
  | none => .ub

/-- `_capacity`, when its value is used (undefined behaviour while indeterminate). -/
def readCapacity : CM K V Nat := fun s =>
  match s.c.capacity with
  | some n => .ok n s
  | none => .ub

/-- `_capacity = n`. -/
def assignCapacity (n : Nat) : CM K V Unit := setSelf fun c => { c with capacity := some n }

/-- `base-cache.hpp` 1173-1175 `size()`: `_map.size()`. -/
def size : CM K V Nat := fun s => .ok s.c.map.length s

/-- `_order.erase(iterator)`: the iterator must belong to this list. -/
def orderErase (it : Option Ptr) : CM K V Unit :=
  match it with
  | none => M.ub
  | some p => do
    let _ ← derefOrder p
    setSelf fun c => { c with order := c.order.filter (fun n => n.addr != p) }

/-- `_order.splice(_order.end(), _order, iterator)`: the iterator must belong to this list. -/
def spliceToEnd (it : Option Ptr) : CM K V Unit :=
  match it with
  | none => M.ub
  | some p => do
    let n ← derefOrder p
    setSelf fun c => { c with order := c.order.filter (fun n => n.addr != p) ++ [n] }

/-- `_map.erase(iterator)`. -/
def mapEraseAt (p : Ptr) : CM K V Unit :=
  setSelf fun c => { c with map := c.map.filter (fun n => n.addr != p) }

/-- `_map.erase(key)`: removes the node with an equal key, if any. -/
def mapEraseKey (k : K) : CM K V Unit :=
  setSelf fun c => { c with map := c.map.filter (fun n => !keq n.key k) }

/-- Assign the value stored in the node at `p`. -/
def assignValue (p : Ptr) (v : V) : CM K V Unit :=
  setSelf fun c => { c with
    map := c.map.map (fun m => if m.addr = p then { m with info := { m.info with value := v } } else m) }

/-- What is left of the value in the node at `p` when an assignment to it throws. -/
def tearValue (p : Ptr) (f : V → V) : CM K V Unit :=
  setSelf fun c => { c with
    map := c.map.map (fun m => if m.addr = p then { m with info := { m.info with value := f m.info.value } } else m) }

/-- `value = new_value`, which may throw. The assignment operator is only assumed to leave some value. -/
def tryAssign (p : Ptr) (v : V) : CM K V Unit := do
  match ← may O .assign with
  | none => assignValue p v
  | some n => do
    tearValue p (fun old => O.torn n old v)
    M.throw .badAlloc

/-! ### `LastAccessed` -/

/-- `last-accessed.hpp` 122-126 `operator==(last_accessed, key)`. -/
def lastIs (k : K) : CM K V Bool := do
  match ← getLast with
  | none => pure false
  | some p => do
    let n ← deref p
    pure (keq k n.key)

/-- `last-accessed.hpp` 227-231 `invalidate`. -/
def lastInvalidate : CM K V Unit := setSelf fun c => { c with last := none }

/-- `last-accessed.hpp` 107-114 `operator=(iterator)`. -/
def setLast (p : Ptr) : CM K V Unit := setSelf fun c => { c with last := some p }

/-- `last-accessed.hpp` 174-213 `key()`, `information()`, `value()`: the node pointed to. -/
def lastNode : CM K V (MapNode K V) := do
  match ← getLast with
  | none => M.ub
  | some p => deref p

/-! ### Helpers -/

/-- `timed-cache.hpp` 375-378 `_has_expired(information)`; plain caches have no such function and
never call it. Reads the clock once. -/
def hasExpiredInfo (time : Int) : CM K V Bool := do
  let kind ← getKind
  match kind with
  | .basic => pure false
  | .timed .. => do
    let t ← now O
    pure (kind.expired time t)

/-- `base-cache.hpp` 1469-1471 and `timed-cache.hpp` 344-347 `_last_accessed_is_ok`. -/
def lastAccessedIsOk : CM K V Bool := do
  match ← getKind with
  | .basic => pure true
  | .timed .. => do
    let n ← lastNode
    let e ← hasExpiredInfo O n.info.time
    pure (!e)

/-- `base-cache.hpp` 1474-1486 and `timed-cache.hpp` 350-369 `_value_for_last_accessed`. Returns the
node whose value is referenced. -/
def valueForLastAccessed : CM K V (MapNode K V) := do
  let n ← lastNode
  match ← getKind with
  | .basic => pure n
  | .timed .. => do
    if ← hasExpiredInfo O n.info.time then M.throw .keyExpired else pure n

/-- `base-cache.hpp` 1394-1400 `_move_to_front(QueueIterator)`. -/
def moveToFront (it : Option Ptr) : CM K V Unit := do
  if (← size) = 1 then pure () else spliceToEnd it

/-- `base-cache.hpp` 1407-1413 `_move_to_front(MapIterator, value)`: reorder, then assign the value
(which may throw). -/
def moveToFrontAssign (n : MapNode K V) (v : V) : CM K V Unit := do
  moveToFront n.info.order
  tryAssign O n.addr v

/-- `base-cache.hpp` 1424-1426, 1441-1443: `if (key == _last_accessed) _last_accessed.invalidate();` -/
def invalidateIf (k : K) : CM K V Unit := do
  if ← lastIs k then lastInvalidate else pure ()

/-- `base-cache.hpp` 1423-1430 `_erase(MapConstIterator)`. -/
def eraseIt (it : Option Ptr) : CM K V Unit := do
  let n ← derefIt it
  invalidateIf n.key
  orderErase n.info.order
  mapEraseAt n.addr

/-- `base-cache.hpp` 1440-1451 `_erase(key, information)`; both references point into the node `n`. -/
def eraseKeyInfo (n : MapNode K V) : CM K V Unit := do
  invalidateIf n.key
  orderErase n.info.order
  mapEraseKey n.key

/-- The key a list node refers to. -/
def keyOf (l : ListNode) : CM K V K := do
  let n ← deref l.ref
  pure n.key

/-- `_order.front()`; undefined behaviour on an empty list. -/
def orderFront : CM K V ListNode := do
  match ← orderFirst with
  | none => M.ub
  | some l => pure l

/-- `_order.back()` / `std::prev(_order.end())`; undefined behaviour on an empty list. -/
def orderBack : CM K V ListNode := do
  match ← orderLast with
  | none => M.ub
  | some l => pure l

/-- `base-cache.hpp` 1416-1418 `_erase_lru`. -/
def eraseLru : CM K V Unit := do
  let l ← orderFront
  let k ← keyOf l
  let it ← mapFind k
  eraseIt (it.map (·.addr))

/-- `base-cache.hpp` 1555-1559 `_evict_lru_for(key)`; `p` is the map node containing `key`. -/
def evictLruFor (p : Ptr) : CM K V Unit := do
  let l ← orderFront
  let k ← keyOf l
  mapEraseKey k
  setSelf fun c => { c with
    order := match c.order with
      | [] => []
      | l :: r => { l with ref := p } :: r }
  moveToFront (some l.addr)

/-- `_order.emplace_back(key)`; `p` is the map node containing `key`. -/
def orderAppend (p : Ptr) : CM K V Unit := do
  attempt O .listNode
  let q ← alloc
  setSelf fun c => { c with order := c.order ++ [⟨q, p⟩] }

/-- `base-cache.hpp` 1543-1547, with `_is_too_full` (1563-1565). -/
def evictOrAppend (p : Ptr) : CM K V Unit := do
  let n ← size
  let cap ← readCapacity
  if n > cap then evictLruFor p else orderAppend O p

/-- `base-cache.hpp` 1542-1550 `_insert_new_key(key)`; `p` is the map node containing `key`.
Returns the list iterator of the new position. -/
def insertNewKey (p : Ptr) : CM K V Ptr := do
  evictOrAppend O p
  let l ← orderBack
  pure l.addr

/-- The insertion time an `Information` object gets: `timed-information.hpp` 66-69, 81-85
(`Clock::now()`); `information.hpp` has none. -/
def insertionTime : CM K V Int := do
  match ← getKind with
  | .basic => pure 0
  | .timed .. => now O

/-- `_map.emplace(key, information)` for a key that is not present: a new node with a singular order
iterator; the hash table may be re-arranged. -/
def mapEmplace (k : K) (v : V) (t : Int) : CM K V Ptr := do
  attempt O .mapNode
  let p ← alloc
  setSelf fun c => { c with map := O.shuffle p ({ addr := p, key := k, info := ⟨v, none, t⟩ } :: c.map) }
  pure p

/-- `result.first->second.order = order`. -/
def setOrder (p q : Ptr) : CM K V Unit :=
  setSelf fun c => { c with
    map := c.map.map (fun m => if m.addr = p then { m with info := { m.info with order := some q } } else m) }

/-- `base-cache.hpp` 911-914 and 1051-1053: the new map node, its list node, and the link between
them. -/
def insertNode (k : K) (v : V) (t : Int) : CM K V Ptr := do
  let p ← mapEmplace O k v t
  let q ← insertNewKey O p
  setOrder p q
  pure p

/-! ### Lookup -/

/-- `cache.hpp` 152-177 and `timed-cache.hpp` 197-228 `find(key)`. Returns a map iterator. -/
def find (k : K) : CM K V (Option Ptr) := do
  let o ← getObs
  match ← mapFind k with
  | some n =>
    if ← hasExpiredInfo O n.info.time then do
      registerMiss O o k
      pure none
    else do
      registerHit O o k n.info.value
      moveToFront n.info.order
      setLast n.addr
      pure (some n.addr)
  | none => do
    registerMiss O o k
    pure none

/-- `base-cache.hpp` 786-798 `contains(key)`. -/
def contains (k : K) : CM K V Bool := do
  let o ← getObs
  if ← lastIs k then
    if ← lastAccessedIsOk O then do
      let n ← lastNode
      registerHit O o k n.info.value
      pure true
    else pure false
  else do
    let it ← find O k
    pure it.isSome

/-- `base-cache.hpp` 752-757 and `timed-cache.hpp` 295-300, 320-326
`throw_if_invalid(UnorderedConstIterator)`. -/
def throwIfInvalidU (it : Option Ptr) : CM K V Unit := do
  match it with
  | none => M.throw .invalidIterator
  | some p =>
    match ← getKind with
    | .basic => pure ()
    | .timed .. => do
      let n ← derefIt (some p)
      if ← hasExpiredInfo O n.info.time then M.throw .keyExpired else pure ()

/-- `base-unordered-iterator.hpp` 181-204 `entry()`, `key()`, `value()` of an iterator whose entry has
not been materialised: the underlying iterator is dereferenced *before* `throw_if_invalid`. Returns the
node the entry's references point into. -/
def entryU (it : Option Ptr) : CM K V (MapNode K V) := do
  let n ← derefIt it
  throwIfInvalidU O it
  pure n

/-- `base-cache.hpp` 811-852 `lookup(key)` and 879-886 `operator[]`. Returns the address of the node whose
value is referenced, and that value. -/
def lookup (k : K) : CM K V (Ptr × V) := do
  let o ← getObs
  if ← lastIs k then do
    let n ← valueForLastAccessed O
    registerHit O o k n.info.value
    pure (n.addr, n.info.value)
  else do
    match ← find O k with
    | none => M.throw .keyNotFound
    | some p => do
      let n ← entryU O (some p)
      pure (n.addr, n.info.value)

/-! ### Insertion -/

/-- `base-cache.hpp` 900-923 `insert(key, value)`. Returns `was_inserted()` and the map iterator
(`insertion-result.hpp`). -/
def insert (k : K) (v : V) : CM K V (Bool × Option Ptr) := do
  if (← readCapacity) = 0 then pure (false, none)
  else match ← mapFind k with
  | none => do
    let t ← insertionTime O
    attempt O .construct
    let p ← insertNode O k v t
    setLast p
    pure (true, some p)
  | some n => do
    moveToFrontAssign O n v
    setLast n.addr
    pure (false, some n.addr)

/-- `base-cache.hpp` 1041-1064 and 1082-1087 `emplace`. `k` and `v` are the results of the user's
constructors; each construction may throw. -/
def emplace (k : K) (v : V) : CM K V (Bool × Option Ptr) := do
  if (← readCapacity) = 0 then pure (false, none)
  else do
    attempt O .construct
    match ← mapFind k with
    | none => do
      attempt O .construct
      let t ← insertionTime O
      let p ← insertNode O k v t
      setLast p
      pure (true, some p)
    | some n => do
      attempt O .construct
      moveToFrontAssign O n v
      setLast n.addr
      pure (false, some n.addr)

/-- `base-cache.hpp` 940-968, 1003-1005: `insert(begin, end)`, `insert(Range&)`,
`insert(InitializerList)`. Returns the number of newly inserted keys. -/
def insertRange : List (K × V) → CM K V Nat
  | [] => pure 0
  | (k, v) :: rest => do
    let r ← insert O k v
    let n ← insertRange rest
    pure ((if r.1 then 1 else 0) + n)

/-- `base-cache.hpp` 980-989 `insert(Range&&)`: emplaces the (moved) elements. -/
def insertRangeMove : List (K × V) → CM K V Nat
  | [] => pure 0
  | (k, v) :: rest => do
    let r ← emplace O k v
    let n ← insertRangeMove rest
    pure ((if r.1 then 1 else 0) + n)

/-! ### Erasure and capacity -/

/-- `base-cache.hpp` 1097-1112 `erase(key)`. -/
def erase (k : K) : CM K V Bool := do
  if ← lastIs k then do
    let n ← lastNode
    eraseKeyInfo n
    pure true
  else do
    match ← mapFind k with
    | some n => do
      eraseIt (some n.addr)
      pure true
    | none => pure false

/-- `base-cache.hpp` 1118-1126 `erase(UnorderedConstIterator)`. -/
def eraseU (it : Option Ptr) : CM K V Unit :=
  match it with
  | none => M.throw .invalidIterator
  | some p => eraseIt (some p)

/-- `base-cache.hpp` 1142-1146 `clear()`. -/
def clear : CM K V Unit :=
  setSelf fun c => { c with map := [], order := [], last := none }

/-- `while (size() > n) _erase_lru();` with an iteration budget. -/
def eraseLruWhile (n : Nat) : Nat → CM K V Unit
  | 0 => M.diverge
  | fuel + 1 => do
    if (← size) > n then do
      eraseLru
      eraseLruWhile n fuel
    else pure ()

/-- `base-cache.hpp` 1156-1166 `shrink(new_size)`. -/
def shrink (n : Nat) : CM K V Unit := do
  let sz ← size
  if n ≥ sz then pure ()
  else if n = 0 then clear
  else eraseLruWhile n (sz + 1)

/-- `base-cache.hpp` 1184-1190 `capacity(new_capacity)`. -/
def setCapacity (n : Nat) : CM K V Unit := do
  let sz ← size
  eraseLruWhile n (sz + 1)
  assignCapacity n

/-- `base-cache.hpp` 1202-1204 `space_left()`: unsigned subtraction, `none` stands for wrap-around. -/
def spaceLeft : CM K V (Option Nat) := do
  let cap ← readCapacity
  let n ← size
  pure (if n ≤ cap then some (cap - n) else none)

/-- `base-cache.hpp` 1207-1209 `is_empty()`. -/
def isEmpty : CM K V Bool := do
  let n ← size
  pure (n == 0)

/-- `base-cache.hpp` 1215-1217 `is_full()`. -/
def isFull : CM K V Bool := do
  let n ← size
  let cap ← readCapacity
  pure (n == cap)

/-- `base-cache.hpp` 1512-1523 `_clear_and_increase_capacity(range)`. -/
def clearAndIncreaseCapacity (distance : Nat) : CM K V Unit := do
  clear
  let cap ← readCapacity
  if distance > cap then assignCapacity distance else pure ()

/-- `base-cache.hpp` 541-545 `operator=(const Range&)`, 564-566 `operator=(InitializerList)`. -/
def assignRange (l : List (K × V)) : CM K V Unit := do
  clearAndIncreaseCapacity l.length
  let _ ← insertRange O l
  pure ()

/-- `base-cache.hpp` 554-558 `operator=(Range&&)`. -/
def assignRangeMove (l : List (K × V)) : CM K V Unit := do
  clearAndIncreaseCapacity l.length
  let _ ← insertRangeMove O l
  pure ()

/-! ### `LRU::Cache` only -/

/-- `cache.hpp` 180-187 `front()`, a `noexcept` function. -/
def front : CM K V K := M.noexcept do
  if ← isEmpty then M.throw .emptyCache
  else do
    let l ← orderBack
    keyOf l

/-- `cache.hpp` 190-197 `back()`, a `noexcept` function. -/
def back : CM K V K := M.noexcept do
  if ← isEmpty then M.throw .emptyCache
  else do
    let l ← orderFront
    keyOf l

/-! ### `LRU::TimedCache` only -/

/-- `timed-cache.hpp` 234-241 `all_expired()`. -/
def allExpired : CM K V Bool := do
  if ← isEmpty then pure true
  else do
    let l ← orderBack
    let k ← keyOf l
    match ← mapFind k with
    | none => M.ub
    | some n => hasExpiredInfo O n.info.time

/-- The loop of `timed-cache.hpp` 258-269, with an iteration budget and the running count. -/
def clearExpiredLoop (count : Nat) : Nat → CM K V Nat
  | 0 => M.diverge
  | fuel + 1 => do
    match ← orderFirst with
    | none => pure count
    | some l => do
      let k ← keyOf l
      match ← mapFind k with
      | none => M.ub
      | some n =>
        if ← hasExpiredInfo O n.info.time then do
          eraseIt (some n.addr)
          clearExpiredLoop (count + 1) fuel
        else pure count

/-- `timed-cache.hpp` 247-272 `clear_expired()`. -/
def clearExpired : CM K V Nat := do
  if ← isEmpty then pure 0
  else do
    let n ← size
    clearExpiredLoop O 0 (n + 1)

/-- `timed-cache.hpp` 276-279 `has_expired(key)`. -/
def hasExpired (k : K) : CM K V Bool := do
  match ← mapFind k with
  | none => pure false
  | some n => hasExpiredInfo O n.info.time

/-! ### Monitoring and callbacks -/

/-- `base-cache.hpp` 1243-1254 `monitor(statistics)`; the pointer may be null. -/
def monitor (i : Option Nat) : CM K V Unit :=
  setSelf fun c => { c with obs := { c.obs with stats := i } }

/-- `base-cache.hpp` 1263-1268 `monitor(args...)`: a new statistics object monitoring the given keys. -/
def monitorNew (ks : List K) : CM K V Nat := fun s =>
  let i := s.g.nextStat
  .ok i { s with
    c := { s.c with obs := { s.c.obs with stats := some i } }
    g := { s.g with
      nextStat := i + 1
      stats := fun j => if j = i then Statistics.ofKeys ks else s.g.stats j } }

/-- `base-cache.hpp` 1273-1275 `stop_monitoring()`. -/
def stopMonitoring : CM K V Unit := setSelf fun c => { c with obs := { c.obs with stats := none } }

/-- `base-cache.hpp` 1279-1281 `is_monitoring()`. -/
def isMonitoring : CM K V Bool := do
  let o ← getObs
  pure o.stats.isSome

/-- `base-cache.hpp` 1286-1301 `stats()`; returns the identity of the object. -/
def stats : CM K V Nat := do
  let o ← getObs
  match o.stats with
  | none => M.throw .notMonitoring
  | some i => pure i

/-- `base-cache.hpp` 1304-1311 `shared_stats()`; the pointer may be null. -/
def sharedStats : CM K V (Option Nat) := do
  let o ← getObs
  pure o.stats

/-- `base-cache.hpp` 1320-1344 and `callback-manager.hpp` 75-96: registration of callbacks. -/
def addHitCallback (cb : Nat) : CM K V Unit :=
  setSelf fun c => { c with obs := { c.obs with hitCbs := c.obs.hitCbs ++ [cb] } }
@[inherit_doc addHitCallback] def addMissCallback (cb : Nat) : CM K V Unit :=
  setSelf fun c => { c with obs := { c.obs with missCbs := c.obs.missCbs ++ [cb] } }
@[inherit_doc addHitCallback] def addAccessCallback (cb : Nat) : CM K V Unit :=
  setSelf fun c => { c with obs := { c.obs with accCbs := c.obs.accCbs ++ [cb] } }

/-- `base-cache.hpp` 1347-1364 and `callback-manager.hpp` 99-118: removal of callbacks. -/
def clearHitCallbacks : CM K V Unit := setSelf fun c => { c with obs := { c.obs with hitCbs := [] } }
@[inherit_doc clearHitCallbacks]
def clearMissCallbacks : CM K V Unit := setSelf fun c => { c with obs := { c.obs with missCbs := [] } }
@[inherit_doc clearHitCallbacks]
def clearAccessCallbacks : CM K V Unit := setSelf fun c => { c with obs := { c.obs with accCbs := [] } }
@[inherit_doc clearHitCallbacks]
def clearAllCallbacks : CM K V Unit :=
  setSelf fun c => { c with obs := { c.obs with hitCbs := [], missCbs := [], accCbs := [] } }

/-! ### User code -/

/-- Assignment through a `Value&` obtained from `lookup`, `operator[]` or an iterator, while the node
`p` is alive in this cache. -/
def write (p : Ptr) (v : V) : CM K V Unit := do
  let n ← derefIt (some p)
  assignValue n.addr v

/-- Reading through such a reference. -/
def read (p : Ptr) : CM K V V := do
  let n ← derefIt (some p)
  pure n.info.value

end LRU.Impl
