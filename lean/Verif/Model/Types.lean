import Verif.Model.Statistics
/-!
# Data structures and environment
-/

namespace LRU

/-- The `KeyEqual` template parameter (`cache.hpp` 65-68): an equivalence relation, in general coarser
than `==` on keys. Being an equivalence is a precondition of `std::unordered_map`. -/
class KeyEqual (K : Type) where
  keq : K → K → Bool
  refl : ∀ a, keq a a = true
  symm : ∀ a b, keq a b = keq b a
  trans : ∀ a b c, keq a b = true → keq b c = true → keq a c = true

export KeyEqual (keq)

/-- Addresses of heap nodes. -/
abbrev Ptr := Nat

/-- `internal/information.hpp` 44-141 and `internal/timed-information.hpp` 44-111: what the map
stores for a key. `order` is the list iterator (`none`: singular, value-initialised iterator);
`time` is `insertion_time`, only meaningful for timed caches. -/
structure Info (V : Type) where
  value : V
  order : Option Ptr
  time : Int
  deriving DecidableEq

/-- A node of `_map` (`base-cache.hpp` 1568). -/
structure MapNode (K V : Type) where
  addr : Ptr
  key : K
  info : Info V
  deriving DecidableEq

/-- A node of `_order` (`base-cache.hpp` 1571): a `std::reference_wrapper` to the key inside the map
node at address `ref` (`definitions.hpp` 38-40, 68-70). -/
structure ListNode where
  addr : Ptr
  ref : Ptr
  deriving DecidableEq, Repr

/-- `LRU::Cache` or `LRU::TimedCache`. A timed cache has `_time_to_live` (`timed-cache.hpp` 381) in units
of its `Duration`; one unit is `res` clock ticks. -/
inductive Kind where
  | basic
  | timed (ttl : Int) (res : Nat)
  deriving DecidableEq, Repr

/-- `_stats` (`base-cache.hpp` 1574; the statistics object is shared, so only its identity is stored) and
`_callback_manager` (1580; the three containers of `callback-manager.hpp` 148-154). -/
structure Obs where
  stats : Option Nat := none
  hitCbs : List Nat := []
  missCbs : List Nat := []
  accCbs : List Nat := []
  deriving DecidableEq, Repr

/-- The members of `BaseCache` (`base-cache.hpp` 1568-1583) and `TimedCache` (`timed-cache.hpp` 381).
* `map`: content of the hash table, in its enumeration order;
* `order`: the queue, front (least recently used) first;
* `last`: `_last_accessed`; its two pointers always point into the same map node
  (`last-accessed.hpp` 107-114), so one address is kept, `none` when `_is_valid` is false (C81);
* `capacity`: `none` when indeterminate (never initialised, `base-cache.hpp` 501-504). -/
structure Cache (K V : Type) where
  map : List (MapNode K V)
  order : List ListNode
  last : Option Ptr
  capacity : Option Nat
  kind : Kind
  obs : Obs
  deriving DecidableEq

/-- A callback invocation, as seen by user code. -/
inductive Event (K V : Type) where
  | hit (cb : Nat) (k : K) (v : V)
  | miss (cb : Nat) (k : K)
  | access (cb : Nat) (k : K) (wasHit : Bool)
  deriving DecidableEq

/-- Places where user code or an allocation may throw. -/
inductive Site where
  | callback (cb : Nat)
  /-- construction of a key, value or `Information` temporary -/
  | construct
  /-- allocation/construction of a hash-map node -/
  | mapNode
  /-- allocation of a list node -/
  | listNode
  /-- assignment of a value -/
  | assign
  deriving DecidableEq, Repr

/-- State shared by all caches: statistics objects, the log of callback invocations, and counters.
`ext` are the live map nodes owned by other caches. -/
structure Shared (K V : Type) where
  ext : List (MapNode K V)
  stats : Nat → Statistics K
  nextStat : Nat
  log : List (Event K V)
  next : Ptr
  ticks : Nat
  steps : Nat

/-- Everything the environment decides: each reading of `Clock::now()` (`definitions.hpp` 80), which
fallible actions throw, what is left of a value when an assignment to it throws (given the old and the new value), and the
enumeration order of the hash table after each insertion. -/
structure Oracle (K V : Type) where
  clock : Nat → Int
  fails : Site → Nat → Bool
  torn : Nat → V → V → V := fun _ old _ => old
  shuffle : Nat → List (MapNode K V) → List (MapNode K V)
  shuffle_perm : ∀ n l, (shuffle n l).Perm l

/-- The state a member function works on: its own cache (`C`) and the shared state. -/
structure St (C K V : Type) where
  c : C
  g : Shared K V

section Effects

variable {C K V : Type}

/-- An action that may throw, as decided by the environment. -/
def attempt (O : Oracle K V) (site : Site) : M (St C K V) Unit := fun s =>
  let s' : St C K V := { s with g := { s.g with steps := s.g.steps + 1 } }
  if O.fails site s.g.steps then
    .throw (match site with | .callback _ => .user | _ => .badAlloc) s'
  else .ok () s'

/-- Whether an action throws: the number of the action if it does. -/
def may (O : Oracle K V) (site : Site) : M (St C K V) (Option Nat) := fun s =>
  .ok (if O.fails site s.g.steps then some s.g.steps else none) { s with g := { s.g with steps := s.g.steps + 1 } }

/-- `Clock::now()`. -/
def now (O : Oracle K V) : M (St C K V) Int := fun s =>
  .ok (O.clock s.g.ticks) { s with g := { s.g with ticks := s.g.ticks + 1 } }

/-- A fresh heap address. -/
def alloc : M (St C K V) Ptr := fun s =>
  .ok s.g.next { s with g := { s.g with next := s.g.next + 1 } }

/-- Record a callback invocation. -/
def emit (e : Event K V) : M (St C K V) Unit :=
  M.modify fun s => { s with g := { s.g with log := s.g.log ++ [e] } }

/-- Change the statistics object `i`. -/
def modStats (i : Nat) (f : Statistics K → Statistics K) : M (St C K V) Unit :=
  M.modify fun s =>
    { s with g := { s.g with stats := fun j => if j = i then f (s.g.stats j) else s.g.stats j } }

/-- `callback-manager.hpp` 140-145 `_call_each`. A callback runs (is logged) and may throw. -/
def callEach (O : Oracle K V) (ev : Nat → Event K V) : List Nat → M (St C K V) Unit
  | [] => pure ()
  | cb :: rest => do
    emit (ev cb)
    attempt O (.callback cb)
    callEach O ev rest

variable [DecidableEq K]

/-- `if (is_monitoring()) _stats.register_hit(key)`, `statistics-mutator.hpp` 79-89. -/
def countHit (o : Obs) (k : K) : M (St C K V) Unit :=
  match o.stats with
  | some i => modStats i (fun s => s.registerHit k)
  | none => pure ()

/-- `base-cache.hpp` 1491-1497 `_register_hit`, with `statistics-mutator.hpp` 79-89 and
`callback-manager.hpp` 58-61. -/
def registerHit (O : Oracle K V) (o : Obs) (k : K) (v : V) : M (St C K V) Unit := do
  countHit o k
  callEach O (fun cb => .hit cb k v) o.hitCbs
  callEach O (fun cb => .access cb k true) o.accCbs

/-- `if (is_monitoring()) _stats.register_miss(key)`, `statistics-mutator.hpp` 94-103. -/
def countMiss (o : Obs) (k : K) : M (St C K V) Unit :=
  match o.stats with
  | some i => modStats i (fun s => s.registerMiss k)
  | none => pure ()

/-- `base-cache.hpp` 1501-1507 `_register_miss`, with `statistics-mutator.hpp` 94-103 and
`callback-manager.hpp` 66-69. -/
def registerMiss (O : Oracle K V) (o : Obs) (k : K) : M (St C K V) Unit := do
  countMiss o k
  callEach O (fun cb => .miss cb k) o.missCbs
  callEach O (fun cb => .access cb k false) o.accCbs

end Effects

/-- `timed-cache.hpp` 375-378 `_has_expired`, given the reading of the clock:
`duration_cast<Duration>(now - insertion_time) > _time_to_live`. `duration_cast` truncates towards zero.
Plain caches never expire anything. -/
def Kind.expired (kind : Kind) (time now : Int) : Bool :=
  match kind with
  | .basic => false
  | .timed ttl res => decide ((now - time).tdiv res > ttl)

end LRU
