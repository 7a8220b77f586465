import Verif.Model.Ops
/-!
# What the calls cost

The member functions of `Model.Cache` and `Model.Iterators` with a meter. They consist of the same steps (`Proofs.Cost`: without
the meter they are the functions of the model), and every step that works on `_map`, `_order`, the statistics or the callbacks
is charged. Steps that only read or write members of fixed size, or follow a pointer, are free. Not charged: growing the hash
table, hashing itself, the work of user-defined operations, and registering callbacks and statistics.
-/

namespace LRU

/-- What a call did: `hash`: operations that search `_map` for a key (`find`, `emplace`, `erase(key)`), each constant on average
for a good hash function; `nodes`: nodes of `_map` and `_order` created, destroyed or moved; `watch`: statistics objects updated
(`statistics-mutator.hpp` 79-103, one search in the map of monitored keys) and callbacks called. -/
structure Bill where
  hash : Nat := 0
  nodes : Nat := 0
  watch : Nat := 0
  deriving DecidableEq

namespace Bill

instance : Add Bill := ⟨fun a b => ⟨a.hash + b.hash, a.nodes + b.nodes, a.watch + b.watch⟩⟩
instance : Zero Bill := ⟨{}⟩

/-- No more of anything. -/
protected def le (a b : Bill) : Prop := a.hash ≤ b.hash ∧ a.nodes ≤ b.nodes ∧ a.watch ≤ b.watch

instance : LE Bill := ⟨Bill.le⟩

end Bill

/-- A body with a meter. -/
def Metered (σ α : Type) : Type := σ → Out σ α × Bill

namespace Metered

variable {σ α β : Type}

/-- Sequencing: the bills add up. -/
def bind (m : Metered σ α) (f : α → Metered σ β) : Metered σ β := fun s =>
  match m s with
  | (.ok a s', c) => ((f a s').1, c + (f a s').2)
  | (.throw e s', c) => (.throw e s', c)
  | (.ub, c) => (.ub, c)
  | (.terminate, c) => (.terminate, c)
  | (.diverge, c) => (.diverge, c)

instance : Monad (Metered σ) where
  pure a := fun s => (.ok a s, 0)
  bind := Metered.bind

/-- A step for a price that may depend on the state. -/
def charge (price : σ → Bill) (m : M σ α) : Metered σ α := fun s => (m s, price s)

/-- A step that costs nothing. -/
def free (m : M σ α) : Metered σ α := charge (fun _ => 0) m

/-- The body without the meter. -/
def body (m : Metered σ α) : M σ α := fun s => (m s).1

end Metered

namespace Cost

open Metered

variable {K V : Type} [KeyEqual K] [DecidableEq K] (O : Oracle K V)

/-- Metered bodies of member functions. -/
abbrev CM (K V α : Type) := Metered (St (Cache K V) K V) α

/-! ### The steps that are charged -/

/-- `_map.find(key)`. -/
def mapFind (k : K) : CM K V (Option (MapNode K V)) := charge (fun _ => { hash := 1 }) (Impl.mapFind k)

/-- `_order.erase(iterator)`. -/
def orderErase (it : Option Ptr) : CM K V Unit := charge (fun _ => { nodes := 1 }) (Impl.orderErase it)

/-- `_order.splice(_order.end(), _order, iterator)`. -/
def spliceToEnd (it : Option Ptr) : CM K V Unit := charge (fun _ => { nodes := 1 }) (Impl.spliceToEnd it)

/-- `_map.erase(iterator)`. -/
def mapEraseAt (p : Ptr) : CM K V Unit := charge (fun _ => { nodes := 1 }) (Impl.mapEraseAt p)

/-- `_map.erase(key)`. -/
def mapEraseKey (k : K) : CM K V Unit := charge (fun _ => { hash := 1, nodes := 1 }) (Impl.mapEraseKey k)

/-- `_order.emplace_back(key)`. -/
def orderAppend (p : Ptr) : CM K V Unit := charge (fun _ => { nodes := 1 }) (Impl.orderAppend O p)

/-- `_map.emplace(key, information)`. -/
def mapEmplace (k : K) (v : V) (t : Int) : CM K V Ptr :=
  charge (fun _ => { hash := 1, nodes := 1 }) (Impl.mapEmplace O k v t)

/-- `base-cache.hpp` 1142-1146 `clear()`: destroys all nodes. -/
def clear : CM K V Unit := charge (fun s => { nodes := s.c.map.length + s.c.order.length }) Impl.clear

/-- The statistics object and the callbacks for a hit; all are charged, also if one throws. -/
def registerHit (o : Obs) (k : K) (v : V) : CM K V Unit :=
  charge (fun _ => { watch := o.stats.toList.length + o.hitCbs.length + o.accCbs.length }) (LRU.registerHit O o k v)

/-- The statistics object and the callbacks for a miss. -/
def registerMiss (o : Obs) (k : K) : CM K V Unit :=
  charge (fun _ => { watch := o.stats.toList.length + o.missCbs.length + o.accCbs.length }) (LRU.registerMiss O o k)

/-! ### Helpers -/

/-- `base-cache.hpp` 1394-1400 `_move_to_front(QueueIterator)`. -/
def moveToFront (it : Option Ptr) : CM K V Unit := do
  if (← free Impl.size) = 1 then pure () else spliceToEnd it

/-- `base-cache.hpp` 1407-1413 `_move_to_front(MapIterator, value)`. -/
def moveToFrontAssign (n : MapNode K V) (v : V) : CM K V Unit := do
  moveToFront n.info.order
  free (Impl.tryAssign O n.addr v)

/-- `base-cache.hpp` 1423-1430 `_erase(MapConstIterator)`. -/
def eraseIt (it : Option Ptr) : CM K V Unit := do
  let n ← free (Impl.derefIt it)
  free (Impl.invalidateIf n.key)
  orderErase n.info.order
  mapEraseAt n.addr

/-- `base-cache.hpp` 1440-1451 `_erase(key, information)`. -/
def eraseKeyInfo (n : MapNode K V) : CM K V Unit := do
  free (Impl.invalidateIf n.key)
  orderErase n.info.order
  mapEraseKey n.key

/-- `base-cache.hpp` 1416-1418 `_erase_lru`. -/
def eraseLru : CM K V Unit := do
  let l ← free Impl.orderFront
  let k ← free (Impl.keyOf l)
  let it ← mapFind k
  eraseIt (it.map (·.addr))

/-- `base-cache.hpp` 1555-1559 `_evict_lru_for(key)`. -/
def evictLruFor (p : Ptr) : CM K V Unit := do
  let l ← free Impl.orderFront
  let k ← free (Impl.keyOf l)
  mapEraseKey k
  free (Impl.setSelf fun c => { c with
    order := match c.order with
      | [] => []
      | l :: r => { l with ref := p } :: r })
  moveToFront (some l.addr)

/-- `base-cache.hpp` 1543-1547. -/
def evictOrAppend (p : Ptr) : CM K V Unit := do
  let n ← free Impl.size
  let cap ← free Impl.readCapacity
  if n > cap then evictLruFor p else orderAppend O p

/-- `base-cache.hpp` 1542-1550 `_insert_new_key(key)`. -/
def insertNewKey (p : Ptr) : CM K V Ptr := do
  evictOrAppend O p
  let l ← free Impl.orderBack
  pure l.addr

/-- `base-cache.hpp` 911-914 and 1051-1053. -/
def insertNode (k : K) (v : V) (t : Int) : CM K V Ptr := do
  let p ← mapEmplace O k v t
  let q ← insertNewKey O p
  free (Impl.setOrder p q)
  pure p

/-! ### Member functions -/

/-- `cache.hpp` 152-177 and `timed-cache.hpp` 197-228 `find(key)`. -/
def find (k : K) : CM K V (Option Ptr) := do
  let o ← free Impl.getObs
  match ← mapFind k with
  | some n =>
    if ← free (Impl.hasExpiredInfo O n.info.time) then do
      registerMiss O o k
      pure none
    else do
      registerHit O o k n.info.value
      moveToFront n.info.order
      free (Impl.setLast n.addr)
      pure (some n.addr)
  | none => do
    registerMiss O o k
    pure none

/-- `base-cache.hpp` 786-798 `contains(key)`. -/
def contains (k : K) : CM K V Bool := do
  let o ← free Impl.getObs
  if ← free (Impl.lastIs k) then
    if ← free (Impl.lastAccessedIsOk O) then do
      let n ← free Impl.lastNode
      registerHit O o k n.info.value
      pure true
    else pure false
  else do
    let it ← find O k
    pure it.isSome

/-- `base-cache.hpp` 811-852 `lookup(key)` and 879-886 `operator[]`. -/
def lookup (k : K) : CM K V (Ptr × V) := do
  let o ← free Impl.getObs
  if ← free (Impl.lastIs k) then do
    let n ← free (Impl.valueForLastAccessed O)
    registerHit O o k n.info.value
    pure (n.addr, n.info.value)
  else do
    match ← find O k with
    | none => free (M.throw .keyNotFound)
    | some p => do
      let n ← free (Impl.entryU O (some p))
      pure (n.addr, n.info.value)

/-- `base-cache.hpp` 900-923 `insert(key, value)`. -/
def insert (k : K) (v : V) : CM K V (Bool × Option Ptr) := do
  if (← free Impl.readCapacity) = 0 then pure (false, none)
  else match ← mapFind k with
  | none => do
    let t ← free (Impl.insertionTime O)
    free (attempt O .construct)
    let p ← insertNode O k v t
    free (Impl.setLast p)
    pure (true, some p)
  | some n => do
    moveToFrontAssign O n v
    free (Impl.setLast n.addr)
    pure (false, some n.addr)

/-- `base-cache.hpp` 1041-1064 and 1082-1087 `emplace`. -/
def emplace (k : K) (v : V) : CM K V (Bool × Option Ptr) := do
  if (← free Impl.readCapacity) = 0 then pure (false, none)
  else do
    free (attempt O .construct)
    match ← mapFind k with
    | none => do
      free (attempt O .construct)
      let t ← free (Impl.insertionTime O)
      let p ← insertNode O k v t
      free (Impl.setLast p)
      pure (true, some p)
    | some n => do
      free (attempt O .construct)
      moveToFrontAssign O n v
      free (Impl.setLast n.addr)
      pure (false, some n.addr)

/-- `base-cache.hpp` 940-968, 1003-1005: `insert` for ranges. -/
def insertRange : List (K × V) → CM K V Nat
  | [] => pure 0
  | (k, v) :: rest => do
    let r ← insert O k v
    let n ← insertRange rest
    pure ((if r.1 then 1 else 0) + n)

/-- `base-cache.hpp` 980-989 `insert(Range&&)`. -/
def insertRangeMove : List (K × V) → CM K V Nat
  | [] => pure 0
  | (k, v) :: rest => do
    let r ← emplace O k v
    let n ← insertRangeMove rest
    pure ((if r.1 then 1 else 0) + n)

/-- `base-cache.hpp` 1097-1112 `erase(key)`. -/
def erase (k : K) : CM K V Bool := do
  if ← free (Impl.lastIs k) then do
    let n ← free Impl.lastNode
    eraseKeyInfo n
    pure true
  else do
    match ← mapFind k with
    | some n => do
      eraseIt (some n.addr)
      pure true
    | none => pure false

/-- `base-cache.hpp` 1118-1126 `erase(UnorderedConstIterator)`. -/
def eraseU (it : Option Ptr) : CM K V Unit :=
  match it with
  | none => free (M.throw .invalidIterator)
  | some p => eraseIt (some p)

/-- `while (size() > n) _erase_lru();` -/
def eraseLruWhile (n : Nat) : Nat → CM K V Unit
  | 0 => free M.diverge
  | fuel + 1 => do
    if (← free Impl.size) > n then do
      eraseLru
      eraseLruWhile n fuel
    else pure ()

/-- `base-cache.hpp` 1156-1166 `shrink(new_size)`. -/
def shrink (n : Nat) : CM K V Unit := do
  let sz ← free Impl.size
  if n ≥ sz then pure ()
  else if n = 0 then clear
  else eraseLruWhile n (sz + 1)

/-- `base-cache.hpp` 1184-1190 `capacity(new_capacity)`. -/
def setCapacity (n : Nat) : CM K V Unit := do
  let sz ← free Impl.size
  eraseLruWhile n (sz + 1)
  free (Impl.assignCapacity n)

/-- `base-cache.hpp` 1512-1523 `_clear_and_increase_capacity(range)`. -/
def clearAndIncreaseCapacity (distance : Nat) : CM K V Unit := do
  clear
  let cap ← free Impl.readCapacity
  if distance > cap then free (Impl.assignCapacity distance) else pure ()

/-- `base-cache.hpp` 541-545 `operator=(const Range&)`. -/
def assignRange (l : List (K × V)) : CM K V Unit := do
  clearAndIncreaseCapacity l.length
  let _ ← insertRange O l
  pure ()

/-- `base-cache.hpp` 554-558 `operator=(Range&&)`. -/
def assignRangeMove (l : List (K × V)) : CM K V Unit := do
  clearAndIncreaseCapacity l.length
  let _ ← insertRangeMove O l
  pure ()

/-- `timed-cache.hpp` 234-241 `all_expired()`. -/
def allExpired : CM K V Bool := do
  if ← free Impl.isEmpty then pure true
  else do
    let l ← free Impl.orderBack
    let k ← free (Impl.keyOf l)
    match ← mapFind k with
    | none => free M.ub
    | some n => free (Impl.hasExpiredInfo O n.info.time)

/-- The loop of `timed-cache.hpp` 258-269. -/
def clearExpiredLoop (count : Nat) : Nat → CM K V Nat
  | 0 => free M.diverge
  | fuel + 1 => do
    match ← free Impl.orderFirst with
    | none => pure count
    | some l => do
      let k ← free (Impl.keyOf l)
      match ← mapFind k with
      | none => free M.ub
      | some n =>
        if ← free (Impl.hasExpiredInfo O n.info.time) then do
          eraseIt (some n.addr)
          clearExpiredLoop (count + 1) fuel
        else pure count

/-- `timed-cache.hpp` 247-272 `clear_expired()`. -/
def clearExpired : CM K V Nat := do
  if ← free Impl.isEmpty then pure 0
  else do
    let n ← free Impl.size
    clearExpiredLoop O 0 (n + 1)

/-- `timed-cache.hpp` 276-279 `has_expired(key)`. -/
def hasExpired (k : K) : CM K V Bool := do
  match ← mapFind k with
  | none => pure false
  | some n => free (Impl.hasExpiredInfo O n.info.time)

/-! ### Ordered iterators look their keys up -/

/-- `base-ordered-iterator.hpp` 313-316 `_lookup()`. -/
def oLookup (pos : Option Ptr) : CM K V Ptr := do
  let k ← free (Impl.keyAt pos)
  match ← mapFind k with
  | none => free M.ub
  | some n => pure n.addr

/-- `base-ordered-iterator.hpp` 272-274, 304-310 `operator*`. -/
def oDeref (it : Impl.OIt) : CM K V Impl.OIt :=
  match it.entry with
  | some _ => pure it
  | none => do
    let p ← oLookup it.pos
    pure { it with entry := some p }

/-- `timed-cache.hpp` 284-290 `has_expired(OrderedConstIterator)`. -/
def hasExpiredO (pos : Option Ptr) : CM K V Bool :=
  match pos with
  | none => pure false
  | some p => do
    let q ← oLookup (some p)
    let n ← free (Impl.derefIt (some q))
    match ← mapFind n.key with
    | none => free M.ub
    | some m => free (Impl.hasExpiredInfo O m.info.time)

/-- `base-cache.hpp` 741-743 and `timed-cache.hpp` 311-315 `is_valid(OrderedConstIterator)`. -/
def isValidO (pos : Option Ptr) : CM K V Bool := do
  match pos with
  | none => pure false
  | some p =>
    match ← free Impl.getKind with
    | .basic => pure true
    | .timed .. => do
      let e ← hasExpiredO O (some p)
      pure (!e)

/-- `base-cache.hpp` 766-770 and `timed-cache.hpp` 331-336 `throw_if_invalid(OrderedConstIterator)`. -/
def throwIfInvalidO (pos : Option Ptr) : CM K V Unit := do
  match pos with
  | none => free (M.throw .invalidIterator)
  | some p =>
    match ← free Impl.getKind with
    | .basic => pure ()
    | .timed .. => do
      if ← hasExpiredO O (some p) then free (M.throw .keyExpired) else pure ()

/-- `base-ordered-iterator.hpp` 278-281 `entry()`. -/
def oEntry (it : Impl.OIt) : CM K V Impl.OIt := do
  throwIfInvalidO O it.pos
  oDeref it

/-- `base-ordered-iterator.hpp` 285-287 `value()`. -/
def oValue (it : Impl.OIt) : CM K V V := do
  let it ← oEntry O it
  let n ← free (Impl.derefIt it.entry)
  pure n.info.value

/-- `base-ordered-iterator.hpp` 291-295 `key()`. -/
def oKey (it : Impl.OIt) : CM K V K := do
  throwIfInvalidO O it.pos
  free (Impl.keyAt it.pos)

/-- `base-cache.hpp` 1133-1139 `erase(OrderedConstIterator)`. -/
def eraseO (it : Impl.OIt) : CM K V Unit :=
  match it.pos with
  | none => free (M.throw .invalidIterator)
  | some p => do
    let k ← oKey O { pos := some p }
    let n ← mapFind k
    eraseIt (n.map (·.addr))

/-- Pass the result on. -/
def ret {α : Type} (m : CM K V α) (f : α → Res K V) : CM K V (Res K V) := do
  let a ← m
  pure (f a)

/-- The metered calls. The calls that are not listed only read or write members of fixed size, follow pointers, or register
callbacks and statistics. -/
def step : Op K V → CM K V (Res K V)
  | .contains k => ret (contains O k) .bool
  | .find k => ret (find O k) .pos
  | .lookup k => ret (lookup O k) (fun r => .ref r.1 r.2)
  | .insert k v => ret (insert O k v) (fun r => .inserted r.1 r.2)
  | .emplace k v => ret (emplace O k v) (fun r => .inserted r.1 r.2)
  | .insertRange l => ret (insertRange O l) .nat
  | .insertRangeMove l => ret (insertRangeMove O l) .nat
  | .assignRange l => ret (assignRange O l) (fun _ => .unit)
  | .assignRangeMove l => ret (assignRangeMove O l) (fun _ => .unit)
  | .erase k => ret (erase k) .bool
  | .eraseU pos => ret (eraseU pos) (fun _ => .unit)
  | .eraseO pos => ret (eraseO O { pos := pos }) (fun _ => .unit)
  | .clear => ret clear (fun _ => .unit)
  | .shrink n => ret (shrink n) (fun _ => .unit)
  | .setCapacity n => ret (setCapacity n) (fun _ => .unit)
  | .allExpired => ret (allExpired O) .bool
  | .clearExpired => ret (clearExpired O) .nat
  | .hasExpired k => ret (hasExpired O k) .bool
  | .hasExpiredO pos => ret (hasExpiredO O pos) .bool
  | .isValidO pos => ret (isValidO O pos) .bool
  | .oKey pos => ret (oKey O { pos := pos }) .key
  | .oValue pos => ret (oValue O { pos := pos }) .value
  | op => free (Impl.step O op)

end Cost

end LRU
