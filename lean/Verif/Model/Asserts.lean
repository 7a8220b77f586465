import Verif.Model.World
/-!
# The library with its assertions enabled

The other models are of release builds (`NDEBUG`): `assert`s are not evaluated. Here every function that contains an
assertion, or calls one that does, is written with it: `timed-cache.hpp` 287, 297; `last-accessed.hpp` 175-211;
`statistics-mutator.hpp` 80, 95, 107, 113; `base-cache.hpp` 912, 1054. What a failed assertion does is a
parameter `A` (`std::abort()`, unless the program redefines it). The functions that are not repeated here contain none.

`_map.emplace` is written in full: it allocates a node, searches for the key and gives the node up again if the key is present.
`_last_accessed` is the address of `Model.Cache`, valid if not `none` (`C81_one_address`).
-/

set_option autoImplicit false

namespace LRU.Impl.Debug

variable {K V : Type} [KeyEqual K] [DecidableEq K] (O : Oracle K V) (A : CM K V Unit)

/-- `assert(b)`: `A` is what a failed assertion does. -/
def assert (b : Bool) : CM K V Unit := if b then pure () else A

/-! ### `LastAccessed` -/

/-- `last-accessed.hpp` 174-213 `key()`, `information()`, `value()`: `assert(is_valid())`. -/
def lastNode : CM K V (MapNode K V) := do
  let l ← getLast
  assert A l.isSome
  match l with
  | none => M.ub
  | some p => deref p

/-- `last-accessed.hpp` 122-126 `operator==(last_accessed, key)`. -/
def lastIs (k : K) : CM K V Bool := do
  let l ← getLast
  if l.isSome then do
    let n ← lastNode A
    pure (keq k n.key)
  else pure false

/-- `base-cache.hpp` 1469-1471 and `timed-cache.hpp` 344-347 `_last_accessed_is_ok`. -/
def lastAccessedIsOk : CM K V Bool := do
  match ← getKind with
  | .basic => pure true
  | .timed .. => do
    let n ← lastNode A
    let e ← hasExpiredInfo O n.info.time
    pure (!e)

/-- `base-cache.hpp` 1474-1486 and `timed-cache.hpp` 350-369 `_value_for_last_accessed`. -/
def valueForLastAccessed : CM K V (MapNode K V) := do
  let n ← lastNode A
  match ← getKind with
  | .basic => pure n
  | .timed .. => do
    if ← hasExpiredInfo O n.info.time then M.throw .keyExpired else pure n

/-! ### `StatisticsMutator` -/

/-- `statistics-mutator.hpp` 79-89 `register_hit`: `assert(has_stats())`. -/
def countHit (o : Obs) (k : K) : CM K V Unit := do
  assert A o.stats.isSome
  LRU.countHit o k

/-- `statistics-mutator.hpp` 94-103 `register_miss`: `assert(has_stats())`. -/
def countMiss (o : Obs) (k : K) : CM K V Unit := do
  assert A o.stats.isSome
  LRU.countMiss o k

/-- `base-cache.hpp` 1491-1497 `_register_hit`. -/
def registerHit (o : Obs) (k : K) (v : V) : CM K V Unit := do
  if o.stats.isSome then countHit A o k else pure ()
  callEach O (fun cb => .hit cb k v) o.hitCbs
  callEach O (fun cb => .access cb k true) o.accCbs

/-- `base-cache.hpp` 1501-1507 `_register_miss`. -/
def registerMiss (o : Obs) (k : K) : CM K V Unit := do
  if o.stats.isSome then countMiss A o k else pure ()
  callEach O (fun cb => .miss cb k) o.missCbs
  callEach O (fun cb => .access cb k false) o.accCbs

/-- `base-cache.hpp` 1286-1301 `stats()` and `statistics-mutator.hpp` 106-115 `get()`. -/
def stats : CM K V Nat := do
  let o ← getObs
  if o.stats.isSome then do
    assert A o.stats.isSome
    match o.stats with
    | none => M.ub
    | some i => pure i
  else M.throw .notMonitoring

/-! ### Lookup -/

/-- `cache.hpp` 152-177 and `timed-cache.hpp` 197-228 `find(key)`. -/
def find (k : K) : CM K V (Option Ptr) := do
  let o ← getObs
  match ← mapFind k with
  | some n =>
    if ← hasExpiredInfo O n.info.time then do
      registerMiss O A o k
      pure none
    else do
      registerHit O A o k n.info.value
      moveToFront n.info.order
      setLast n.addr
      pure (some n.addr)
  | none => do
    registerMiss O A o k
    pure none

/-- `base-cache.hpp` 786-798 `contains(key)`. -/
def contains (k : K) : CM K V Bool := do
  let o ← getObs
  if ← lastIs A k then
    if ← lastAccessedIsOk O A then do
      let n ← lastNode A
      registerHit O A o k n.info.value
      pure true
    else pure false
  else do
    let it ← find O A k
    pure it.isSome

/-- `timed-cache.hpp` 295-300 `has_expired(UnorderedConstIterator)`: `assert(iterator != _map.end())`. -/
def hasExpiredU (it : Option Ptr) : CM K V Bool :=
  if it = none then pure false
  else do
    assert A (it ≠ none)
    let n ← derefIt it
    hasExpiredInfo O n.info.time

/-- `timed-cache.hpp` 284-290 `has_expired(OrderedConstIterator)`: `assert(iterator != _map.end())`. -/
def hasExpiredO (pos : Option Ptr) : CM K V Bool :=
  if pos = none then pure false
  else do
    let q ← oLookup pos
    let n ← derefIt (some q)
    let it ← mapFind n.key
    assert A it.isSome
    match it with
    | none => M.ub
    | some m => hasExpiredInfo O m.info.time

/-- `base-cache.hpp` 752-757 and `timed-cache.hpp` 320-326 `throw_if_invalid(UnorderedConstIterator)`. -/
def throwIfInvalidU (it : Option Ptr) : CM K V Unit := do
  if it = none then M.throw .invalidIterator
  else
    match ← getKind with
    | .basic => pure ()
    | .timed .. => do
      if ← hasExpiredU O A it then M.throw .keyExpired else pure ()

/-- `base-cache.hpp` 766-770 and `timed-cache.hpp` 331-336 `throw_if_invalid(OrderedConstIterator)`. -/
def throwIfInvalidO (pos : Option Ptr) : CM K V Unit := do
  if pos = none then M.throw .invalidIterator
  else
    match ← getKind with
    | .basic => pure ()
    | .timed .. => do
      if ← hasExpiredO O A pos then M.throw .keyExpired else pure ()

/-- `base-cache.hpp` 731-734 and `timed-cache.hpp` 303-308 `is_valid(UnorderedConstIterator)`. -/
def isValidU (it : Option Ptr) : CM K V Bool := do
  if it = none then pure false
  else
    match ← getKind with
    | .basic => pure true
    | .timed .. => do
      let e ← hasExpiredU O A it
      pure (!e)

/-- `base-cache.hpp` 741-743 and `timed-cache.hpp` 311-315 `is_valid(OrderedConstIterator)`. -/
def isValidO (pos : Option Ptr) : CM K V Bool := do
  if pos = none then pure false
  else
    match ← getKind with
    | .basic => pure true
    | .timed .. => do
      let e ← hasExpiredO O A pos
      pure (!e)

/-- `base-unordered-iterator.hpp` 181-204 `entry()` of an iterator whose entry has not been materialised. -/
def entryU (it : Option Ptr) : CM K V (MapNode K V) := do
  let n ← derefIt it
  throwIfInvalidU O A it
  pure n

/-- `base-cache.hpp` 811-852 `lookup(key)` and 879-886 `operator[]`. -/
def lookup (k : K) : CM K V (Ptr × V) := do
  let o ← getObs
  if ← lastIs A k then do
    let n ← valueForLastAccessed O A
    registerHit O A o k n.info.value
    pure (n.addr, n.info.value)
  else do
    match ← find O A k with
    | none => M.throw .keyNotFound
    | some p => do
      let n ← entryU O A (some p)
      pure (n.addr, n.info.value)

/-! ### Insertion -/

/-- `_map.emplace(key, information)`: the node found or added, and whether it was added. -/
def mapEmplace (k : K) (v : V) (t : Int) : CM K V (Ptr × Bool) := do
  attempt O .mapNode
  let p ← alloc
  match ← mapFind k with
  | some n => pure (n.addr, false)
  | none => do
    setSelf fun c => { c with map := O.shuffle p ({ addr := p, key := k, info := ⟨v, none, t⟩ } :: c.map) }
    pure (p, true)

/-- `base-cache.hpp` 900-923 `insert(key, value)`: `assert(result.second)` after `_map.emplace`. -/
def insert (k : K) (v : V) : CM K V (Bool × Option Ptr) := do
  if (← readCapacity) = 0 then pure (false, none)
  else match ← mapFind k with
  | none => do
    let t ← insertionTime O
    attempt O .construct
    let r ← mapEmplace O k v t
    assert A r.2
    let q ← insertNewKey O r.1
    setOrder r.1 q
    setLast r.1
    pure (true, some r.1)
  | some n => do
    moveToFrontAssign O n v
    setLast n.addr
    pure (false, some n.addr)

/-- `base-cache.hpp` 1041-1064 and 1082-1087 `emplace`: `assert(result.second)` after the key is in the list. -/
def emplace (k : K) (v : V) : CM K V (Bool × Option Ptr) := do
  if (← readCapacity) = 0 then pure (false, none)
  else do
    attempt O .construct
    match ← mapFind k with
    | none => do
      attempt O .construct
      let t ← insertionTime O
      let r ← mapEmplace O k v t
      let q ← insertNewKey O r.1
      setOrder r.1 q
      assert A r.2
      setLast r.1
      pure (true, some r.1)
    | some n => do
      attempt O .construct
      moveToFrontAssign O n v
      setLast n.addr
      pure (false, some n.addr)

/-- `base-cache.hpp` 940-968, 1003-1005: `insert(begin, end)`, `insert(Range&)`, `insert(InitializerList)`. -/
def insertRange : List (K × V) → CM K V Nat
  | [] => pure 0
  | (k, v) :: rest => do
    let r ← insert O A k v
    let n ← insertRange rest
    pure ((if r.1 then 1 else 0) + n)

/-- `base-cache.hpp` 980-989 `insert(Range&&)`. -/
def insertRangeMove : List (K × V) → CM K V Nat
  | [] => pure 0
  | (k, v) :: rest => do
    let r ← emplace O A k v
    let n ← insertRangeMove rest
    pure ((if r.1 then 1 else 0) + n)

/-- `base-cache.hpp` 541-545 `operator=(const Range&)`, 564-566 `operator=(InitializerList)`. -/
def assignRange (l : List (K × V)) : CM K V Unit := do
  clearAndIncreaseCapacity l.length
  let _ ← insertRange O A l
  pure ()

/-- `base-cache.hpp` 554-558 `operator=(Range&&)`. -/
def assignRangeMove (l : List (K × V)) : CM K V Unit := do
  clearAndIncreaseCapacity l.length
  let _ ← insertRangeMove O A l
  pure ()

/-! ### Erasure -/

/-- `base-cache.hpp` 1424-1426, 1441-1443. -/
def invalidateIf (k : K) : CM K V Unit := do
  if ← lastIs A k then lastInvalidate else pure ()

/-- `base-cache.hpp` 1423-1430 `_erase(MapConstIterator)`. -/
def eraseIt (it : Option Ptr) : CM K V Unit := do
  let n ← derefIt it
  invalidateIf A n.key
  orderErase n.info.order
  mapEraseAt n.addr

/-- `base-cache.hpp` 1440-1451 `_erase(key, information)`. -/
def eraseKeyInfo (n : MapNode K V) : CM K V Unit := do
  invalidateIf A n.key
  orderErase n.info.order
  mapEraseKey n.key

/-- `base-cache.hpp` 1097-1112 `erase(key)`. -/
def erase (k : K) : CM K V Bool := do
  if ← lastIs A k then do
    let n ← lastNode A
    eraseKeyInfo A n
    pure true
  else do
    match ← mapFind k with
    | some n => do
      eraseIt A (some n.addr)
      pure true
    | none => pure false

/-- `base-cache.hpp` 1118-1126 `erase(UnorderedConstIterator)`. -/
def eraseU (it : Option Ptr) : CM K V Unit :=
  match it with
  | none => M.throw .invalidIterator
  | some p => eraseIt A (some p)

/-- `base-cache.hpp` 1416-1418 `_erase_lru`. -/
def eraseLru : CM K V Unit := do
  let l ← orderFront
  let k ← keyOf l
  let it ← mapFind k
  eraseIt A (it.map (·.addr))

/-- `while (size() > n) _erase_lru();` -/
def eraseLruWhile (n : Nat) : Nat → CM K V Unit
  | 0 => M.diverge
  | fuel + 1 => do
    if (← size) > n then do
      eraseLru A
      eraseLruWhile n fuel
    else pure ()

/-- `base-cache.hpp` 1156-1166 `shrink(new_size)`. -/
def shrink (n : Nat) : CM K V Unit := do
  let sz ← size
  if n ≥ sz then pure ()
  else if n = 0 then clear
  else eraseLruWhile A n (sz + 1)

/-- `base-cache.hpp` 1184-1190 `capacity(new_capacity)`. -/
def setCapacity (n : Nat) : CM K V Unit := do
  let sz ← size
  eraseLruWhile A n (sz + 1)
  assignCapacity n

/-- The loop of `timed-cache.hpp` 258-269. -/
def clearExpiredLoop (count : Nat) : Nat → CM K V Nat
  | 0 => M.diverge
  | fuel + 1 => do
    match ← orderFirst with
    | none => pure count
    | some l => do
      let k ← keyOf l
      match ← mapFind k with
      | none => M.ub
      | some n =>
        if ← hasExpiredInfo O n.info.time then do
          eraseIt A (some n.addr)
          clearExpiredLoop (count + 1) fuel
        else pure count

/-- `timed-cache.hpp` 247-272 `clear_expired()`. -/
def clearExpired : CM K V Nat := do
  if ← isEmpty then pure 0
  else do
    let n ← size
    clearExpiredLoop O A 0 (n + 1)

/-! ### Iterators -/

/-- `base-unordered-iterator.hpp` 181-188 `entry()`. -/
def uEntry (it : UIt) : CM K V UIt := do
  let it ← uDeref it
  throwIfInvalidU O A it.pos
  pure it

/-- `base-unordered-iterator.hpp` 194-196 `key()`. -/
def uKey (it : UIt) : CM K V K := do
  let it ← uEntry O A it
  let n ← derefIt it.entry
  pure n.key

/-- `base-unordered-iterator.hpp` 202-204 `value()`. -/
def uValue (it : UIt) : CM K V V := do
  let it ← uEntry O A it
  let n ← derefIt it.entry
  pure n.info.value

/-- `base-ordered-iterator.hpp` 278-281 `entry()`. -/
def oEntry (it : OIt) : CM K V OIt := do
  throwIfInvalidO O A it.pos
  oDeref it

/-- `base-ordered-iterator.hpp` 285-287 `value()`. -/
def oValue (it : OIt) : CM K V V := do
  let it ← oEntry O A it
  let n ← derefIt it.entry
  pure n.info.value

/-- `base-ordered-iterator.hpp` 291-295 `key()`. -/
def oKey (it : OIt) : CM K V K := do
  throwIfInvalidO O A it.pos
  keyAt it.pos

/-- `base-cache.hpp` 1133-1139 `erase(OrderedConstIterator)`. -/
def eraseO (it : OIt) : CM K V Unit :=
  match it.pos with
  | none => M.throw .invalidIterator
  | some p => do
    let k ← oKey O A { pos := some p }
    let n ← mapFind k
    eraseIt A (n.map (·.addr))

/-- Run a public call with assertions enabled. -/
def step : Op K V → CM K V (Res K V)
  | .contains k => ret (contains O A k) .bool
  | .find k => ret (find O A k) .pos
  | .lookup k => ret (lookup O A k) (fun r => .ref r.1 r.2)
  | .insert k v => ret (insert O A k v) (fun r => .inserted r.1 r.2)
  | .emplace k v => ret (emplace O A k v) (fun r => .inserted r.1 r.2)
  | .insertRange l => ret (insertRange O A l) .nat
  | .insertRangeMove l => ret (insertRangeMove O A l) .nat
  | .assignRange l => ret (assignRange O A l) (fun _ => .unit)
  | .assignRangeMove l => ret (assignRangeMove O A l) (fun _ => .unit)
  | .erase k => ret (erase A k) .bool
  | .eraseU pos => ret (eraseU A pos) (fun _ => .unit)
  | .eraseO pos => ret (eraseO O A { pos := pos }) (fun _ => .unit)
  | .shrink n => ret (shrink A n) (fun _ => .unit)
  | .setCapacity n => ret (setCapacity A n) (fun _ => .unit)
  | .clearExpired => ret (clearExpired O A) .nat
  | .hasExpiredU pos => ret (hasExpiredU O A pos) .bool
  | .hasExpiredO pos => ret (hasExpiredO O A pos) .bool
  | .isValidU pos => ret (isValidU O A pos) .bool
  | .isValidO pos => ret (isValidO O A pos) .bool
  | .uKey pos => ret (uKey O A { pos := pos }) .key
  | .uValue pos => ret (uValue O A { pos := pos }) .value
  | .oKey pos => ret (oKey O A { pos := pos }) .key
  | .oValue pos => ret (oValue O A { pos := pos }) .value
  | .stats => ret (stats A) .nat
  | op => Impl.step O op

/-! ### Programs -/

/-- `base-cache.hpp` 361-487: what a constructor inserts. -/
def ctorBody : Ctor K V → CM K V Nat
  | .default => pure 0
  | .sized _ => pure 0
  | .sizedItems _ l => insertRange O A l
  | .items l => insertRange O A l
  | .initList l => insertRange O A l
  | .sizedRangeMove _ l => insertRangeMove O A l
  | .rangeMove l => insertRangeMove O A l

/-- Construction with assertions enabled. -/
def create (kind : Kind) (ctor : Ctor K V) : M (World K V) Unit := fun w =>
  match ctorBody O A ctor ⟨emptyCache kind (ctorCapacity ctor), { w.g with ext := allNodes w.caches }⟩ with
  | .ok _ s => .ok () ⟨w.caches ++ [some s.c], s.g⟩
  | .throw e s => .throw e ⟨w.caches, s.g⟩
  | .ub => .ub
  | .terminate => .terminate
  | .diverge => .diverge

/-- One step of a program, with assertions enabled. Copying, moving, swapping and comparing caches contain none. -/
def wstep [DecidableEq V] : WOp K V → M (World K V) (Res K V)
  | .create kind c => ret (create O A kind c) (fun _ => .unit)
  | .op i o => onCache i (step O A o)
  | op => Impl.wstep O op

end LRU.Impl.Debug
