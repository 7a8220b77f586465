import Verif.Model.World
/-!
# The mid-level list machine

The same operations as in `Model`, on a cache whose entries are kept in one list ordered by recency
(least recently used first). Used only in proofs: `Proofs.Sim` shows that it produces exactly the outcomes of
the model.
-/

namespace LRU

/-- An entry: address of its map node, address of its list node, key, value, insertion time, and the
list iterator stored with it. -/
structure Ent (K V : Type) where
  id : Ptr
  slot : Ptr
  key : K
  val : V
  time : Int
  ord : Option Ptr

/-- The map node of an entry. -/
def Ent.node {K V : Type} (e : Ent K V) : MapNode K V := ⟨e.id, e.key, ⟨e.val, e.ord, e.time⟩⟩

/-- The list node of an entry. -/
def Ent.lnode {K V : Type} (e : Ent K V) : ListNode := ⟨e.slot, e.id⟩

/-- A cache as a list of entries. -/
structure MCache (K V : Type) where
  ents : List (Ent K V)
  last : Option Ptr
  cap : Option Nat
  kind : Kind
  obs : Obs

namespace Mid

variable {K V : Type} [KeyEqual K] [DecidableEq K] (O : Oracle K V)

abbrev CM (K V α : Type) := M (St (MCache K V) K V) α

/-! ### Primitives -/

def setSelf (f : MCache K V → MCache K V) : CM K V Unit := M.modify fun s => { s with c := f s.c }

def getKind : CM K V Kind := fun s => .ok s.c.kind s

def getObs : CM K V Obs := fun s => .ok s.c.obs s

def getLast : CM K V (Option Ptr) := fun s => .ok s.c.last s

def orderFirst : CM K V (Option ListNode) := fun s => .ok (s.c.ents.head?.map Ent.lnode) s

def orderLast : CM K V (Option ListNode) := fun s => .ok (s.c.ents.getLast?.map Ent.lnode) s

def orderAddrs : CM K V (List Ptr) := fun s => .ok (s.c.ents.map (·.slot)) s

def mapFind (k : K) : CM K V (Option (MapNode K V)) := fun s =>
  .ok ((s.c.ents.find? (fun e => keq e.key k)).map Ent.node) s

def deref (p : Ptr) : CM K V (MapNode K V) := fun s =>
  match s.c.ents.find? (fun e => e.id == p) with
  | some e => .ok e.node s
  | none =>
    match s.g.ext.find? (fun n => n.addr == p) with
    | some n => .ok n s
    | none => .ub

def derefIt : Option Ptr → CM K V (MapNode K V)
  | none => M.ub
  | some p => fun s =>
    match s.c.ents.find? (fun e => e.id == p) with
    | some e => .ok e.node s
    | none => .ub

def derefOrder (p : Ptr) : CM K V ListNode := fun s =>
  match s.c.ents.find? (fun e => e.slot == p) with
  | some e => .ok e.lnode s
  | none => .ub

def readCapacity : CM K V Nat := fun s =>
  match s.c.cap with
  | some n => .ok n s
  | none => .ub

def assignCapacity (n : Nat) : CM K V Unit := setSelf fun c => { c with cap := some n }

def size : CM K V Nat := fun s => .ok s.c.ents.length s

/-- `_order.erase` and `_map.erase` of one entry. -/
def eraseNode (n : MapNode K V) : CM K V Unit :=
  match n.info.order with
  | none => M.ub
  | some q => fun s =>
    match s.c.ents.find? (fun e => e.slot == q) with
    | some _ => .ok () { s with c := { s.c with ents := s.c.ents.filter (fun e => e.slot != q) } }
    | none => .ub

def spliceToEnd (it : Option Ptr) : CM K V Unit :=
  match it with
  | none => M.ub
  | some q => fun s =>
    match s.c.ents.find? (fun e => e.slot == q) with
    | some e => .ok () { s with c := { s.c with ents := s.c.ents.filter (fun e => e.slot != q) ++ [e] } }
    | none => .ub

def assignValue (p : Ptr) (v : V) : CM K V Unit :=
  setSelf fun c => { c with ents := c.ents.map (fun e => if e.id = p then { e with val := v } else e) }

def tearValue (p : Ptr) (f : V → V) : CM K V Unit :=
  setSelf fun c => { c with ents := c.ents.map (fun e => if e.id = p then { e with val := f e.val } else e) }

def tryAssign (p : Ptr) (v : V) : CM K V Unit := do
  match ← may O .assign with
  | none => assignValue p v
  | some n => do
    tearValue p (fun old => O.torn n old v)
    M.throw .badAlloc

/-- The first entry makes room for a new one, which takes over its list node. -/
def replaceFirst (k : K) (v : V) (t : Int) (p : Ptr) : CM K V Unit := fun s =>
  match s.c.ents with
  | [] => .ub
  | e :: r => .ok () { s with c := { s.c with ents := r ++ [⟨p, e.slot, k, v, t, some e.slot⟩] } }

/-- Insertion of a new entry after its map node `p` was allocated. -/
def placeNode (k : K) (v : V) (t : Int) (p : Ptr) : CM K V Unit := do
  let n ← size
  let cap ← readCapacity
  if n + 1 > cap then replaceFirst k v t p
  else do
    attempt O .listNode
    let q ← alloc
    setSelf fun c => { c with ents := c.ents ++ [⟨p, q, k, v, t, some q⟩] }

/-- A new entry at the end; evicts the first one when the cache is full. -/
def insertNode (k : K) (v : V) (t : Int) : CM K V Ptr := do
  attempt O .mapNode
  let p ← alloc
  placeNode O k v t p
  pure p

def clear : CM K V Unit := setSelf fun c => { c with ents := [], last := none }

/-! ### The rest is the same program text as in `Model` -/

def lastIs (k : K) : CM K V Bool := do
  match ← getLast with
  | none => pure false
  | some p => do
    let n ← deref p
    pure (keq k n.key)

def lastInvalidate : CM K V Unit := setSelf fun c => { c with last := none }

def setLast (p : Ptr) : CM K V Unit := setSelf fun c => { c with last := some p }

def lastNode : CM K V (MapNode K V) := do
  match ← getLast with
  | none => M.ub
  | some p => deref p

def hasExpiredInfo (time : Int) : CM K V Bool := do
  let kind ← getKind
  match kind with
  | .basic => pure false
  | .timed .. => do
    let t ← now O
    pure (kind.expired time t)

def lastAccessedIsOk : CM K V Bool := do
  match ← getKind with
  | .basic => pure true
  | .timed .. => do
    let n ← lastNode
    let e ← hasExpiredInfo O n.info.time
    pure (!e)

def valueForLastAccessed : CM K V (MapNode K V) := do
  let n ← lastNode
  match ← getKind with
  | .basic => pure n
  | .timed .. => do
    if ← hasExpiredInfo O n.info.time then M.throw .keyExpired else pure n

def moveToFront (it : Option Ptr) : CM K V Unit := do
  if (← size) = 1 then pure () else spliceToEnd it

def moveToFrontAssign (n : MapNode K V) (v : V) : CM K V Unit := do
  moveToFront n.info.order
  tryAssign O n.addr v

def invalidateIf (k : K) : CM K V Unit := do
  if ← lastIs k then lastInvalidate else pure ()

def eraseIt (it : Option Ptr) : CM K V Unit := do
  let n ← derefIt it
  invalidateIf n.key
  eraseNode n

def eraseKeyInfo (n : MapNode K V) : CM K V Unit := do
  invalidateIf n.key
  eraseNode n

def keyOf (l : ListNode) : CM K V K := do
  let n ← deref l.ref
  pure n.key

def orderFront : CM K V ListNode := do
  match ← orderFirst with
  | none => M.ub
  | some l => pure l

def orderBack : CM K V ListNode := do
  match ← orderLast with
  | none => M.ub
  | some l => pure l

def eraseLru : CM K V Unit := do
  let l ← orderFront
  let k ← keyOf l
  let it ← mapFind k
  eraseIt (it.map (·.addr))

def insertionTime : CM K V Int := do
  match ← getKind with
  | .basic => pure 0
  | .timed .. => now O

def find (k : K) : CM K V (Option Ptr) := do
  let o ← getObs
  match ← mapFind k with
  | some n =>
    if ← hasExpiredInfo O n.info.time then do
      registerMiss O o k
      pure none
    else do
      registerHit O o k n.info.value
      moveToFront n.info.order
      setLast n.addr
      pure (some n.addr)
  | none => do
    registerMiss O o k
    pure none

def contains (k : K) : CM K V Bool := do
  let o ← getObs
  if ← lastIs k then
    if ← lastAccessedIsOk O then do
      let n ← lastNode
      registerHit O o k n.info.value
      pure true
    else pure false
  else do
    let it ← find O k
    pure it.isSome

def throwIfInvalidU (it : Option Ptr) : CM K V Unit := do
  match it with
  | none => M.throw .invalidIterator
  | some p =>
    match ← getKind with
    | .basic => pure ()
    | .timed .. => do
      let n ← derefIt (some p)
      if ← hasExpiredInfo O n.info.time then M.throw .keyExpired else pure ()

def entryU (it : Option Ptr) : CM K V (MapNode K V) := do
  let n ← derefIt it
  throwIfInvalidU O it
  pure n

def lookup (k : K) : CM K V (Ptr × V) := do
  let o ← getObs
  if ← lastIs k then do
    let n ← valueForLastAccessed O
    registerHit O o k n.info.value
    pure (n.addr, n.info.value)
  else do
    match ← find O k with
    | none => M.throw .keyNotFound
    | some p => do
      let n ← entryU O (some p)
      pure (n.addr, n.info.value)

def insert (k : K) (v : V) : CM K V (Bool × Option Ptr) := do
  if (← readCapacity) = 0 then pure (false, none)
  else match ← mapFind k with
  | none => do
    let t ← insertionTime O
    attempt O .construct
    let p ← insertNode O k v t
    setLast p
    pure (true, some p)
  | some n => do
    moveToFrontAssign O n v
    setLast n.addr
    pure (false, some n.addr)

def emplace (k : K) (v : V) : CM K V (Bool × Option Ptr) := do
  if (← readCapacity) = 0 then pure (false, none)
  else do
    attempt O .construct
    match ← mapFind k with
    | none => do
      attempt O .construct
      let t ← insertionTime O
      let p ← insertNode O k v t
      setLast p
      pure (true, some p)
    | some n => do
      attempt O .construct
      moveToFrontAssign O n v
      setLast n.addr
      pure (false, some n.addr)

def insertRange : List (K × V) → CM K V Nat
  | [] => pure 0
  | (k, v) :: rest => do
    let r ← insert O k v
    let n ← insertRange rest
    pure ((if r.1 then 1 else 0) + n)

def insertRangeMove : List (K × V) → CM K V Nat
  | [] => pure 0
  | (k, v) :: rest => do
    let r ← emplace O k v
    let n ← insertRangeMove rest
    pure ((if r.1 then 1 else 0) + n)

def erase (k : K) : CM K V Bool := do
  if ← lastIs k then do
    let n ← lastNode
    eraseKeyInfo n
    pure true
  else do
    match ← mapFind k with
    | some n => do
      eraseIt (some n.addr)
      pure true
    | none => pure false

def eraseU (it : Option Ptr) : CM K V Unit :=
  match it with
  | none => M.throw .invalidIterator
  | some p => eraseIt (some p)

def eraseLruWhile (n : Nat) : Nat → CM K V Unit
  | 0 => M.diverge
  | fuel + 1 => do
    if (← size) > n then do
      eraseLru
      eraseLruWhile n fuel
    else pure ()

def shrink (n : Nat) : CM K V Unit := do
  let sz ← size
  if n ≥ sz then pure ()
  else if n = 0 then clear
  else eraseLruWhile n (sz + 1)

def setCapacity (n : Nat) : CM K V Unit := do
  let sz ← size
  eraseLruWhile n (sz + 1)
  assignCapacity n

def spaceLeft : CM K V (Option Nat) := do
  let cap ← readCapacity
  let n ← size
  pure (if n ≤ cap then some (cap - n) else none)

def isEmpty : CM K V Bool := do
  let n ← size
  pure (n == 0)

def isFull : CM K V Bool := do
  let n ← size
  let cap ← readCapacity
  pure (n == cap)

def clearAndIncreaseCapacity (distance : Nat) : CM K V Unit := do
  clear
  let cap ← readCapacity
  if distance > cap then assignCapacity distance else pure ()

def assignRange (l : List (K × V)) : CM K V Unit := do
  clearAndIncreaseCapacity l.length
  let _ ← insertRange O l
  pure ()

def assignRangeMove (l : List (K × V)) : CM K V Unit := do
  clearAndIncreaseCapacity l.length
  let _ ← insertRangeMove O l
  pure ()

def front : CM K V K := M.noexcept do
  if ← isEmpty then M.throw .emptyCache
  else do
    let l ← orderBack
    keyOf l

def back : CM K V K := M.noexcept do
  if ← isEmpty then M.throw .emptyCache
  else do
    let l ← orderFront
    keyOf l

def allExpired : CM K V Bool := do
  if ← isEmpty then pure true
  else do
    let l ← orderBack
    let k ← keyOf l
    match ← mapFind k with
    | none => M.ub
    | some n => hasExpiredInfo O n.info.time

def clearExpiredLoop (count : Nat) : Nat → CM K V Nat
  | 0 => M.diverge
  | fuel + 1 => do
    match ← orderFirst with
    | none => pure count
    | some l => do
      let k ← keyOf l
      match ← mapFind k with
      | none => M.ub
      | some n =>
        if ← hasExpiredInfo O n.info.time then do
          eraseIt (some n.addr)
          clearExpiredLoop (count + 1) fuel
        else pure count

def clearExpired : CM K V Nat := do
  if ← isEmpty then pure 0
  else do
    let n ← size
    clearExpiredLoop O 0 (n + 1)

def hasExpired (k : K) : CM K V Bool := do
  match ← mapFind k with
  | none => pure false
  | some n => hasExpiredInfo O n.info.time

def monitor (i : Option Nat) : CM K V Unit :=
  setSelf fun c => { c with obs := { c.obs with stats := i } }

def monitorNew (ks : List K) : CM K V Nat := fun s =>
  let i := s.g.nextStat
  .ok i { s with
    c := { s.c with obs := { s.c.obs with stats := some i } }
    g := { s.g with
      nextStat := i + 1
      stats := fun j => if j = i then Statistics.ofKeys ks else s.g.stats j } }

def stopMonitoring : CM K V Unit := setSelf fun c => { c with obs := { c.obs with stats := none } }

def isMonitoring : CM K V Bool := do
  let o ← getObs
  pure o.stats.isSome

def stats : CM K V Nat := do
  let o ← getObs
  match o.stats with
  | none => M.throw .notMonitoring
  | some i => pure i

def sharedStats : CM K V (Option Nat) := do
  let o ← getObs
  pure o.stats

def addHitCallback (cb : Nat) : CM K V Unit :=
  setSelf fun c => { c with obs := { c.obs with hitCbs := c.obs.hitCbs ++ [cb] } }

def addMissCallback (cb : Nat) : CM K V Unit :=
  setSelf fun c => { c with obs := { c.obs with missCbs := c.obs.missCbs ++ [cb] } }

def addAccessCallback (cb : Nat) : CM K V Unit :=
  setSelf fun c => { c with obs := { c.obs with accCbs := c.obs.accCbs ++ [cb] } }

def clearHitCallbacks : CM K V Unit := setSelf fun c => { c with obs := { c.obs with hitCbs := [] } }

def clearMissCallbacks : CM K V Unit := setSelf fun c => { c with obs := { c.obs with missCbs := [] } }

def clearAccessCallbacks : CM K V Unit := setSelf fun c => { c with obs := { c.obs with accCbs := [] } }

def clearAllCallbacks : CM K V Unit :=
  setSelf fun c => { c with obs := { c.obs with hitCbs := [], missCbs := [], accCbs := [] } }

def write (p : Ptr) (v : V) : CM K V Unit := do
  let n ← derefIt (some p)
  assignValue n.addr v

def read (p : Ptr) : CM K V V := do
  let n ← derefIt (some p)
  pure n.info.value

def uDeref (it : Impl.UIt) : CM K V Impl.UIt := do
  match it.entry with
  | some _ => pure it
  | none => do
    let n ← derefIt it.pos
    pure { it with entry := some n.addr }

def uEntry (it : Impl.UIt) : CM K V Impl.UIt := do
  let it ← uDeref it
  throwIfInvalidU O it.pos
  pure it

def uKey (it : Impl.UIt) : CM K V K := do
  let it ← uEntry O it
  let n ← derefIt it.entry
  pure n.key

def uValue (it : Impl.UIt) : CM K V V := do
  let it ← uEntry O it
  let n ← derefIt it.entry
  pure n.info.value

def hasExpiredU (it : Option Ptr) : CM K V Bool :=
  match it with
  | none => pure false
  | some p => do
    let n ← derefIt (some p)
    hasExpiredInfo O n.info.time

def isValidU (it : Option Ptr) : CM K V Bool := do
  match it with
  | none => pure false
  | some p =>
    match ← getKind with
    | .basic => pure true
    | .timed .. => do
      let e ← hasExpiredU O (some p)
      pure (!e)

def oBegin : CM K V Impl.OIt := do
  let as ← orderAddrs
  pure { pos := as.head? }

def oNext (it : Impl.OIt) : CM K V Impl.OIt := do
  let as ← orderAddrs
  match it.pos with
  | none => M.ub
  | some p =>
    match Impl.after p as with
    | none => M.ub
    | some q => pure { pos := q }

def oPrev (it : Impl.OIt) : CM K V Impl.OIt := do
  let as ← orderAddrs
  match it.pos with
  | none =>
    match as.getLast? with
    | none => M.ub
    | some q => pure { pos := some q }
  | some p =>
    match Impl.after p as.reverse with
    | some (some q) => pure { pos := some q }
    | _ => M.ub

def keyAt (pos : Option Ptr) : CM K V K :=
  match pos with
  | none => M.ub
  | some p => do
    let l ← derefOrder p
    keyOf l

def oLookup (pos : Option Ptr) : CM K V Ptr := do
  let k ← keyAt pos
  match ← mapFind k with
  | none => M.ub
  | some n => pure n.addr

def oDeref (it : Impl.OIt) : CM K V Impl.OIt :=
  match it.entry with
  | some _ => pure it
  | none => do
    let p ← oLookup it.pos
    pure { it with entry := some p }

def hasExpiredO (pos : Option Ptr) : CM K V Bool :=
  match pos with
  | none => pure false
  | some p => do
    let q ← oLookup (some p)
    let n ← derefIt (some q)
    match ← mapFind n.key with
    | none => M.ub
    | some m => hasExpiredInfo O m.info.time

def isValidO (pos : Option Ptr) : CM K V Bool := do
  match pos with
  | none => pure false
  | some p =>
    match ← getKind with
    | .basic => pure true
    | .timed .. => do
      let e ← hasExpiredO O (some p)
      pure (!e)

def throwIfInvalidO (pos : Option Ptr) : CM K V Unit := do
  match pos with
  | none => M.throw .invalidIterator
  | some p =>
    match ← getKind with
    | .basic => pure ()
    | .timed .. => do
      if ← hasExpiredO O (some p) then M.throw .keyExpired else pure ()

def oEntry (it : Impl.OIt) : CM K V Impl.OIt := do
  throwIfInvalidO O it.pos
  oDeref it

def oValue (it : Impl.OIt) : CM K V V := do
  let it ← oEntry O it
  let n ← derefIt it.entry
  pure n.info.value

def oKey (it : Impl.OIt) : CM K V K := do
  throwIfInvalidO O it.pos
  keyAt it.pos

def toOrdered (it : Impl.UIt) : CM K V Impl.OIt :=
  match it.pos with
  | none => M.throw .invalidIteratorConversion
  | some p => do
    let n ← derefIt (some p)
    match n.info.order with
    | none => M.ub
    | some q => pure { pos := some q }

def eqOU (o : Impl.OIt) (u : Impl.UIt) : CM K V Bool := M.noexcept do
  match u.pos with
  | none => pure (Impl.oEq o { pos := none })
  | some p => do
    let o' ← toOrdered { pos := some p }
    pure (Impl.oEq o o')

def eraseO (it : Impl.OIt) : CM K V Unit :=
  match it.pos with
  | none => M.throw .invalidIterator
  | some p => do
    let k ← oKey O { pos := some p }
    let n ← mapFind k
    eraseIt (n.map (·.addr))

def step : Op K V → CM K V (Res K V)
  | .contains k => Impl.ret (contains O k) .bool
  | .find k => Impl.ret (find O k) .pos
  | .lookup k => Impl.ret (lookup O k) (fun r => .ref r.1 r.2)
  | .insert k v => Impl.ret (insert O k v) (fun r => .inserted r.1 r.2)
  | .emplace k v => Impl.ret (emplace O k v) (fun r => .inserted r.1 r.2)
  | .insertRange l => Impl.ret (insertRange O l) .nat
  | .insertRangeMove l => Impl.ret (insertRangeMove O l) .nat
  | .assignRange l => Impl.ret (assignRange O l) (fun _ => .unit)
  | .assignRangeMove l => Impl.ret (assignRangeMove O l) (fun _ => .unit)
  | .erase k => Impl.ret (erase k) .bool
  | .eraseU pos => Impl.ret (eraseU pos) (fun _ => .unit)
  | .eraseO pos => Impl.ret (eraseO O { pos := pos }) (fun _ => .unit)
  | .clear => Impl.ret clear (fun _ => .unit)
  | .shrink n => Impl.ret (shrink n) (fun _ => .unit)
  | .setCapacity n => Impl.ret (setCapacity n) (fun _ => .unit)
  | .size => Impl.ret size .nat
  | .capacity => Impl.ret readCapacity .nat
  | .spaceLeft => Impl.ret spaceLeft .optNat
  | .isEmpty => Impl.ret isEmpty .bool
  | .isFull => Impl.ret isFull .bool
  | .front => Impl.ret front .key
  | .back => Impl.ret back .key
  | .allExpired => Impl.ret (allExpired O) .bool
  | .clearExpired => Impl.ret (clearExpired O) .nat
  | .hasExpired k => Impl.ret (hasExpired O k) .bool
  | .hasExpiredU pos => Impl.ret (hasExpiredU O pos) .bool
  | .hasExpiredO pos => Impl.ret (hasExpiredO O pos) .bool
  | .isValidU pos => Impl.ret (isValidU O pos) .bool
  | .isValidO pos => Impl.ret (isValidO O pos) .bool
  | .uKey pos => Impl.ret (uKey O { pos := pos }) .key
  | .uValue pos => Impl.ret (uValue O { pos := pos }) .value
  | .oBegin => Impl.ret oBegin (fun it => .pos it.pos)
  | .oNext pos => Impl.ret (oNext { pos := pos }) (fun it => .pos it.pos)
  | .oPrev pos => Impl.ret (oPrev { pos := pos }) (fun it => .pos it.pos)
  | .oKey pos => Impl.ret (oKey O { pos := pos }) .key
  | .oValue pos => Impl.ret (oValue O { pos := pos }) .value
  | .toOrdered pos => Impl.ret (toOrdered { pos := pos }) (fun it => .pos it.pos)
  | .eqOU o u => Impl.ret (eqOU { pos := o } { pos := u }) .bool
  | .monitor i => Impl.ret (monitor i) (fun _ => .unit)
  | .monitorNew ks => Impl.ret (monitorNew ks) .nat
  | .stopMonitoring => Impl.ret stopMonitoring (fun _ => .unit)
  | .isMonitoring => Impl.ret isMonitoring .bool
  | .stats => Impl.ret stats .nat
  | .sharedStats => Impl.ret sharedStats .optNat
  | .addHitCallback cb => Impl.ret (addHitCallback cb) (fun _ => .unit)
  | .addMissCallback cb => Impl.ret (addMissCallback cb) (fun _ => .unit)
  | .addAccessCallback cb => Impl.ret (addAccessCallback cb) (fun _ => .unit)
  | .clearHitCallbacks => Impl.ret clearHitCallbacks (fun _ => .unit)
  | .clearMissCallbacks => Impl.ret clearMissCallbacks (fun _ => .unit)
  | .clearAccessCallbacks => Impl.ret clearAccessCallbacks (fun _ => .unit)
  | .clearAllCallbacks => Impl.ret clearAllCallbacks (fun _ => .unit)
  | .write p v => Impl.ret (write p v) (fun _ => .unit)
  | .read p => Impl.ret (read p) .value

end Mid

end LRU
