import Verif.Model.Ops
/-!
# Several caches: construction, destruction, swap, move, copy, comparison
-/

namespace LRU

/-- All live objects: caches (`none`: destroyed) and the shared state. The field `g.ext` is recomputed
whenever a member function of a cache is entered. -/
structure World (K V : Type) where
  caches : List (Option (Cache K V))
  g : Shared K V

/-- `definitions.hpp` 36. -/
def DEFAULT_CAPACITY : Nat := 128

/-- Constructors of `LRU::Cache` (`cache.hpp` 81-149) and `LRU::TimedCache` (`timed-cache.hpp` 88-178), which
forward to `base-cache.hpp` 348-487. `kind` selects the class and carries the time to live. -/
inductive Ctor (K V : Type) where
  /-- no capacity given -/
  | default
  /-- `(capacity)` -/
  | sized (n : Nat)
  /-- `(capacity, begin, end)`, `(capacity, Range&)`, `(capacity, InitializerList)` -/
  | sizedItems (n : Nat) (l : List (K × V))
  /-- `(begin, end)`, `(Range&)` -/
  | items (l : List (K × V))
  /-- `(InitializerList)` -/
  | initList (l : List (K × V))
  /-- `(capacity, Range&&)` -/
  | sizedRangeMove (n : Nat) (l : List (K × V))
  /-- `(Range&&)` -/
  | rangeMove (l : List (K × V))

/-- The duration given to a `TimedCache` constructor, converted by `duration_cast<Duration>`
(`timed-cache.hpp` 94). Both are given in clock ticks; one unit of `Duration` is `res` ticks. -/
def timedKind (ttlTicks : Int) (res : Nat) : Kind := .timed (ttlTicks.tdiv res) res

/-- Calls on statistics objects held through a `shared_ptr` (`statistics.hpp`). -/
inductive SOp (K : Type) where
  | monitor (k : K) | unmonitor (k : K) | unmonitorAll | resetKey (k : K)

/-- A step of a program using several caches. -/
inductive WOp (K V : Type) where
  | create (kind : Kind) (c : Ctor K V)
  | destroy (i : Nat)
  | op (i : Nat) (o : Op K V)
  | swap (i j : Nat)
  /-- `swap` of the caches as objects of their base class -/
  | swapBase (i j : Nat)
  | moveCtor (i : Nat)
  | moveAssign (i j : Nat)
  | copyCtor (i : Nat)
  | copyAssign (i j : Nat)
  | eq (i j : Nat)
  | newStats (ks : List K)
  | stat (id : Nat) (o : SOp K)

namespace Impl

variable {K V : Type} [KeyEqual K] [DecidableEq K] [DecidableEq V] (O : Oracle K V)

/-- `base-cache.hpp` 348-352: an empty cache. -/
def emptyCache (kind : Kind) (n : Nat) : Cache K V :=
  { map := [], order := [], last := none, capacity := some n, kind := kind, obs := {} }

/-- `base-cache.hpp` 361-487, `cache.hpp` 81-149, `timed-cache.hpp` 88-178: the capacity the constructor
chooses. -/
def ctorCapacity : Ctor K V → Nat
  | .default => DEFAULT_CAPACITY
  | .sized n => n
  | .sizedItems n _ => n
  | .items l => max l.length DEFAULT_CAPACITY
  | .initList l => l.length
  | .sizedRangeMove n _ => n
  | .rangeMove l => l.length

/-- `base-cache.hpp` 361-487: what the constructor inserts. -/
def ctorBody : Ctor K V → CM K V Nat
  | .default => pure 0
  | .sized _ => pure 0
  | .sizedItems _ l => insertRange O l
  | .items l => insertRange O l
  | .initList l => insertRange O l
  | .sizedRangeMove _ l => insertRangeMove O l
  | .rangeMove l => insertRangeMove O l

/-- The map nodes of a list of caches. -/
def allNodes (cs : List (Option (Cache K V))) : List (MapNode K V) :=
  cs.flatMap fun
    | none => []
    | some c => c.map

/-- Run a member function on cache `i`. Using an object that does not exist is undefined behaviour. -/
def onCache {α : Type} (i : Nat) (m : CM K V α) : M (World K V) α := fun w =>
  match w.caches[i]? with
  | some (some c) =>
    match m ⟨c, { w.g with ext := allNodes (w.caches.set i none) }⟩ with
    | .ok a s => .ok a ⟨w.caches.set i (some s.c), s.g⟩
    | .throw e s => .throw e ⟨w.caches.set i (some s.c), s.g⟩
    | .ub => .ub
    | .terminate => .terminate
    | .diverge => .diverge
  | _ => .ub

/-- The cache object at `i`; undefined behaviour if it does not exist. -/
def getCache (i : Nat) : M (World K V) (Cache K V) := fun w =>
  match w.caches[i]? with
  | some (some c) => .ok c w
  | _ => .ub

/-- Overwrite the cache object at `i`. -/
def putCache (i : Nat) (c : Option (Cache K V)) : M (World K V) Unit :=
  M.modify fun w => { w with caches := w.caches.set i c }

/-- A new object. -/
def pushCache (c : Cache K V) : M (World K V) Unit :=
  M.modify fun w => { w with caches := w.caches ++ [some c] }

/-- Construction: the members are initialised, then the items are inserted. If that throws no object
comes into existence. -/
def create (kind : Kind) (ctor : Ctor K V) : M (World K V) Unit := fun w =>
  match ctorBody O ctor ⟨emptyCache kind (ctorCapacity ctor), { w.g with ext := allNodes w.caches }⟩ with
  | .ok _ s => .ok () ⟨w.caches ++ [some s.c], s.g⟩
  | .throw e s => .throw e ⟨w.caches, s.g⟩
  | .ub => .ub
  | .terminate => .terminate
  | .diverge => .diverge

/-- Two caches are of the same C++ type: same class and (timed) same `Duration`. -/
def sameType : Kind → Kind → Bool
  | .basic, .basic => true
  | .timed _ r, .timed _ r' => r == r'
  | _, _ => false

/-- `base-cache.hpp` 571-578 `BaseCache::swap`: first component of the result is the new value of `a`. -/
def swapBase (a b : Cache K V) : Cache K V × Cache K V :=
  ({ a with map := b.map, order := b.order, last := b.last, capacity := b.capacity },
   { b with map := a.map, order := a.order, last := a.last, capacity := a.capacity })

/-- Two caches have the same base class: `timed-cache.hpp` 43-52, the base class does not depend on `Duration`. -/
def sameBase : Kind → Kind → Bool
  | .basic, .basic => true
  | .timed .., .timed .. => true
  | _, _ => false

/-- `base-cache.hpp` 571-586 and `timed-cache.hpp` 181-194 `swap`, for caches of the same type; timed caches also exchange
the time to live. (The member function of caches of different types does not compile; such a call is ignored.) -/
def swap (i j : Nat) : M (World K V) Unit := do
  let a ← getCache i
  let b ← getCache j
  if i = j || !sameType a.kind b.kind then pure () else do
    let p := swapBase a b
    putCache i (some { p.1 with kind := b.kind })
    putCache j (some { p.2 with kind := a.kind })

/-- `base-cache.hpp` 571-586 `swap` on references to the base class. This is also the function that `swap(a, b)` calls for
timed caches with different `Duration`s, for which `timed-cache.hpp` 192 does not match. `TimedCache::swap` has another
parameter type and does not override it, so the times to live stay. (Does not compile for a plain and a timed cache.) -/
def swapThroughBase (i j : Nat) : M (World K V) Unit := do
  let a ← getCache i
  let b ← getCache j
  if i = j || !sameBase a.kind b.kind then pure () else do
    let p := swapBase a b
    putCache i (some p.1)
    putCache j (some p.2)

/-- `base-cache.hpp` 501-504 move constructor (implicit in `Cache` and `TimedCache`, which copy the time
to live): the members are default-initialised, the capacity is left indeterminate, then swapped. -/
def moveCtor (i : Nat) : M (World K V) Unit := do
  let b ← getCache i
  let fresh : Cache K V :=
    { map := [], order := [], last := none, capacity := none, kind := b.kind, obs := {} }
  let p := swapBase fresh b
  putCache i (some p.2)
  pushCache p.1

/-- `base-cache.hpp` 522-526 move assignment (implicit in the derived classes, where the time to live of
the source is copied): `i = std::move(j)`. -/
def moveAssign (i j : Nat) : M (World K V) Unit := do
  let a ← getCache i
  let b ← getCache j
  if i = j || !sameType a.kind b.kind then pure () else do
    let p := swapBase a b
    putCache i (some { p.1 with kind := b.kind })
    putCache j (some p.2)

/-- `_map(other._map)`: nodes at fresh addresses holding copies of key and `Information`, the list
iterator included. (Addresses are just names. All addresses in use are below `base`; the copy of the node at `a`
gets the name `base + a`, so that names do not depend on the order in which the table is copied.) -/
def copyNodes (base : Ptr) (l : List (MapNode K V)) : List (MapNode K V) :=
  l.map fun n => { n with addr := base + n.addr }

/-- `_order(other._order)` followed by `base-cache.hpp` 1530-1534 `_reassign_references()`: list nodes at fresh
addresses whose references are re-seated to the keys of the copied map. `none`: undefined behaviour. -/
def copyOrder (base : Ptr) (src dst : List (MapNode K V)) : List ListNode → Option (List ListNode)
  | [] => some []
  | l :: r =>
    match src.find? (fun n => n.addr == l.ref) with
    | none => none
    | some n =>
      match dst.find? (fun m => keq m.key n.key) with
      | none => none
      | some m =>
        match copyOrder (base + 1) src dst r with
        | none => none
        | some rest => some (⟨base, m.addr⟩ :: rest)

/-- The copied members, with fresh addresses starting at `base`. -/
def copyOf (base : Ptr) (b : Cache K V) : Option (Cache K V) :=
  let nodes := O.shuffle base (copyNodes base b.map)
  match copyOrder (base + base) b.map nodes b.order with
  | none => none
  | some order => some { b with map := nodes, order := order }

/-- Allocate addresses for a copy of `b` and build it. -/
def makeCopy (b : Cache K V) : M (World K V) (Cache K V) := fun w =>
  match copyOf O w.g.next b with
  | none => .ub
  | some c => .ok c { w with g := { w.g with next := w.g.next + w.g.next + b.order.length } }

/-- Allocations and copies of user types inside a copy may throw. -/
def worldAttempt (site : Site) : M (World K V) Unit := fun w =>
  let w' : World K V := { w with g := { w.g with steps := w.g.steps + 1 } }
  if O.fails site w.g.steps then .throw .badAlloc w' else .ok () w'

/-- `base-cache.hpp` 490-498 copy constructor (implicit in the derived classes). -/
def copyCtor (i : Nat) : M (World K V) Unit := do
  let b ← getCache i
  worldAttempt O .mapNode
  let c ← makeCopy O b
  pushCache c

/-- `base-cache.hpp` 507-519 copy assignment `i = j`, `noexcept` (implicit in the derived classes). -/
def copyAssign (i j : Nat) : M (World K V) Unit := M.noexcept do
  let a ← getCache i
  let b ← getCache j
  if i = j || !sameType a.kind b.kind then pure () else do
    worldAttempt O .mapNode
    let c ← makeCopy O b
    putCache i (some c)

/-- `information.hpp` 101-109 and `timed-information.hpp` 94-97 `operator==`. -/
def infoEq (kind : Kind) (a b : Info V) : Bool :=
  match kind with
  | .basic => decide (a.value = b.value)
  | .timed .. => decide (a.value = b.value) && decide (a.time = b.time)

/-- `_map == other._map`: same size, and every element of the one is found (by `KeyEqual`) in the other
and equal (`==` on keys and `Information`) to what is found. -/
def mapEq (a b : Cache K V) : Bool :=
  a.map.length == b.map.length &&
  a.map.all fun n =>
    match b.map.find? (fun m => keq m.key n.key) with
    | none => false
    | some m => decide (m.key = n.key) && infoEq a.kind n.info m.info

/-- The keys referenced by `_order`; `none`: a dangling reference. -/
def orderKeys (c : Cache K V) : Option (List K) :=
  c.order.mapM fun l => (c.map.find? (fun n => n.addr == l.ref)).map (·.key)

/-- `base-cache.hpp` 594-607 `operator==` on two different objects; `none`: undefined behaviour. -/
def cacheEq (a b : Cache K V) : Option Bool :=
  if mapEq a b then
    match orderKeys a, orderKeys b with
    | some x, some y => some (decide (x = y))
    | _, _ => none
  else some false

/-- `base-cache.hpp` 594-607 `operator==`. -/
def equal (i j : Nat) : M (World K V) Bool := do
  let a ← getCache i
  let b ← getCache j
  if i = j then pure true else
    match cacheEq a b with
    | none => M.ub
    | some r => pure r

/-- `std::make_shared<Statistics<Key>>(keys...)`. -/
def newStats (ks : List K) : M (World K V) Nat := fun w =>
  .ok w.g.nextStat { w with g := { w.g with
    nextStat := w.g.nextStat + 1
    stats := fun j => if j = w.g.nextStat then Statistics.ofKeys ks else w.g.stats j } }

/-- A call on a statistics object. -/
def statStep (s : Statistics K) : SOp K → Except Err (Statistics K)
  | .monitor k => .ok (s.monitor k)
  | .unmonitor k => s.unmonitor k
  | .unmonitorAll => .ok s.unmonitorAll
  | .resetKey k => s.resetKey k

/-- A call on the statistics object `id` of the world. -/
def stat (id : Nat) (o : SOp K) : M (World K V) Unit := fun w =>
  match statStep (w.g.stats id) o with
  | .error e => .throw e w
  | .ok s => .ok () { w with g := { w.g with
      stats := fun j => if j = id then s else w.g.stats j } }

/-- One step of a program. -/
def wstep : WOp K V → M (World K V) (Res K V)
  | .create kind c => ret (create O kind c) (fun _ => .unit)
  | .destroy i => ret (do let _ ← getCache (K := K) (V := V) i; putCache i none) (fun _ => .unit)
  | .op i o => onCache i (step O o)
  | .swap i j => ret (swap i j) (fun _ => .unit)
  | .swapBase i j => ret (swapThroughBase i j) (fun _ => .unit)
  | .moveCtor i => ret (moveCtor i) (fun _ => .unit)
  | .moveAssign i j => ret (moveAssign i j) (fun _ => .unit)
  | .copyCtor i => ret (copyCtor O i) (fun _ => .unit)
  | .copyAssign i j => ret (copyAssign O i j) (fun _ => .unit)
  | .eq i j => ret (equal i j) .bool
  | .newStats ks => ret (newStats ks) .nat
  | .stat id o => ret (stat id o) (fun _ => .unit)

/-- The empty world. -/
def initWorld : World K V :=
  { caches := []
    g := { ext := [], stats := fun _ => {}, nextStat := 0, log := [], next := 0, ticks := 0, steps := 0 } }

end Impl

end LRU
