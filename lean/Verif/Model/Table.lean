import Verif.Model.Ops
/-!
# Hash table growth

`std::unordered_map` moves its elements to other buckets when there are too many of them for the buckets it has
([unord.req]: `emplace` and `insert` do not affect the validity of iterators if the new size is at most
`max_load_factor() * bucket_count()`). Iterators of the table from before are then invalid; the nodes stay where they are,
so that references, pointers and the list `_order` are not affected. `Model.Cache` lets the enumeration order change
(`Oracle.shuffle`) but lets old iterators be used. Here the cache is run together with the size of its table, and an
iterator into the table knows the table it belongs to.

The constructors ask for 0 buckets (`base-cache.hpp` 351), and nothing sets the number of buckets or the load factor later.
Copy, move and swap of caches are not modelled here.
-/

set_option autoImplicit false

namespace LRU

/-- The buckets of `_map`. `limit`: the number of elements there is room for, `max_load_factor() * bucket_count()`. `epoch`:
how often the elements have been moved to other buckets. -/
structure Table where
  limit : Nat
  epoch : Nat
  deriving DecidableEq, Repr

/-- How the standard library chooses the number of buckets. `grow p n`: for `n` elements, the newest of which is `p` (never
less than needed, see `Impl.growFor`). `cleared`: after `clear()`, which the standard does not specify. -/
structure Growth where
  grow : Ptr → Nat → Nat
  cleared : Nat → Nat

/-- A cache with its environment, and its table. -/
structure TSt (K V : Type) where
  s : St (Cache K V) K V
  table : Table

/-- An iterator into the table: what it points to, and the epoch it belongs to. -/
structure TIt (α : Type) where
  val : α
  epoch : Nat
  deriving DecidableEq, Repr

/-- The unordered iterator among the arguments of a call (past-the-end iterators are compared only; `base-cache.hpp`
1119, 731, 748, `timed-cache.hpp` 296). -/
def Op.uArg {K V : Type} : Op K V → Option Ptr
  | .eraseU pos => pos
  | .hasExpiredU pos => pos
  | .isValidU pos => pos
  | .uKey pos => pos
  | .uValue pos => pos
  | .toOrdered pos => pos
  | .eqOU _ pos => pos
  | _ => none

namespace Impl

variable {K V : Type} [KeyEqual K] [DecidableEq K] (O : Oracle K V) (G : Growth)

/-- Bodies acting on the cache and its table. -/
abbrev TM (K V α : Type) := M (TSt K V) α

/-- Run code that neither inserts into the table nor clears it. -/
def onT {α : Type} (m : CM K V α) : TM K V α := fun t =>
  match m t.s with
  | .ok a s => .ok a ⟨s, t.table⟩
  | .throw e s => .throw e ⟨s, t.table⟩
  | .ub => .ub
  | .terminate => .terminate
  | .diverge => .diverge

/-- Use an iterator into the table; undefined behaviour if the elements have been moved since. -/
def useIt {α : Type} (it : TIt α) : TM K V α := fun t =>
  if it.epoch = t.table.epoch then .ok it.val t else .ub

/-- Make room for the new element `p`, which is the `n`-th. -/
def growFor (p : Ptr) (n : Nat) : TM K V Unit := M.modify fun t =>
  if n ≤ t.table.limit then t else { t with table := ⟨max n (G.grow p n), t.table.epoch + 1⟩ }

/-- An iterator into the table as it is now. -/
def itAt {α : Type} (a : α) : TM K V (TIt α) := fun t => .ok ⟨a, t.table.epoch⟩ t

/-- `_map.find(key)` (`base-cache.hpp` 903, 1048). -/
def mapFindT (k : K) : TM K V (Option (TIt (MapNode K V))) := do
  match ← onT (mapFind k) with
  | none => pure none
  | some n => do
    let it ← itAt n
    pure (some it)

/-- `_map.emplace(key, information)` (`base-cache.hpp` 911, 1051). -/
def mapEmplaceT (k : K) (v : V) (time : Int) : TM K V (TIt Ptr) := do
  let n ← onT size
  let p ← onT (mapEmplace O k v time)
  growFor G p (n + 1)
  itAt p

/-- `base-cache.hpp` 911-916, 1051-1056: the new map node, its list node, the link between them, `_last_accessed`, and the
iterator for the result. -/
def insertNodeT (k : K) (v : V) (time : Int) : TM K V (Bool × Option (TIt Ptr)) := do
  let it ← mapEmplaceT O G k v time
  let p ← useIt it
  let q ← onT (insertNewKey O p)
  let p ← useIt it
  onT (setOrder p q)
  let p ← useIt it
  onT (setLast p)
  pure (true, some it)

/-- `base-cache.hpp` 919-921, 1060-1062. -/
def updateNodeT (it : TIt (MapNode K V)) (v : V) : TM K V (Bool × Option (TIt Ptr)) := do
  let n ← useIt it
  onT (moveToFrontAssign O n v)
  let n ← useIt it
  onT (setLast n.addr)
  pure (false, some ⟨n.addr, it.epoch⟩)

/-- `base-cache.hpp` 900-923 `insert(key, value)`. -/
def insertT (k : K) (v : V) : TM K V (Bool × Option (TIt Ptr)) := do
  if (← onT readCapacity) = 0 then pure (false, none)
  else match ← mapFindT k with
  | none => do
    let time ← onT (insertionTime O)
    onT (attempt O .construct)
    insertNodeT O G k v time
  | some it => updateNodeT O it v

/-- `base-cache.hpp` 1041-1064, 1082-1087 `emplace`. -/
def emplaceT (k : K) (v : V) : TM K V (Bool × Option (TIt Ptr)) := do
  if (← onT readCapacity) = 0 then pure (false, none)
  else do
    onT (attempt O .construct)
    match ← mapFindT k with
    | none => do
      onT (attempt O .construct)
      let time ← onT (insertionTime O)
      insertNodeT O G k v time
    | some it => do
      onT (attempt O .construct)
      updateNodeT O it v

/-- `base-cache.hpp` 940-968, 1003-1005: `insert(begin, end)`, `insert(Range&)`, `insert(InitializerList)`. -/
def insertRangeT : List (K × V) → TM K V Nat
  | [] => pure 0
  | (k, v) :: rest => do
    let r ← insertT O G k v
    let n ← insertRangeT rest
    pure ((if r.1 then 1 else 0) + n)

/-- `base-cache.hpp` 980-989 `insert(Range&&)`. -/
def insertRangeMoveT : List (K × V) → TM K V Nat
  | [] => pure 0
  | (k, v) :: rest => do
    let r ← emplaceT O G k v
    let n ← insertRangeMoveT rest
    pure ((if r.1 then 1 else 0) + n)

/-- `base-cache.hpp` 1142-1146 `clear()`. -/
def clearT : TM K V Unit := do
  onT clear
  M.modify fun t => { t with table := { t.table with limit := G.cleared t.table.limit } }

/-- `base-cache.hpp` 1156-1166 `shrink(new_size)`. -/
def shrinkT (n : Nat) : TM K V Unit := do
  let sz ← onT size
  if n ≥ sz then pure ()
  else if n = 0 then clearT G
  else onT (eraseLruWhile n (sz + 1))

/-- `base-cache.hpp` 1512-1523 `_clear_and_increase_capacity(range)`. -/
def clearAndIncreaseCapacityT (distance : Nat) : TM K V Unit := do
  clearT G
  let cap ← onT readCapacity
  if distance > cap then onT (assignCapacity distance) else pure ()

/-- `base-cache.hpp` 541-545, 564-566. -/
def assignRangeT (l : List (K × V)) : TM K V Unit := do
  clearAndIncreaseCapacityT G l.length
  let _ ← insertRangeT O G l
  pure ()

/-- `base-cache.hpp` 554-558. -/
def assignRangeMoveT (l : List (K × V)) : TM K V Unit := do
  clearAndIncreaseCapacityT G l.length
  let _ ← insertRangeMoveT O G l
  pure ()

/-- Run a public call; its unordered iterator, if it has one, is from epoch `e`. -/
def tstep (op : Op K V) (e : Nat) : TM K V (Res K V) :=
  match op with
  | .insert k v => ret (insertT O G k v) (fun r => .inserted r.1 (r.2.map TIt.val))
  | .emplace k v => ret (emplaceT O G k v) (fun r => .inserted r.1 (r.2.map TIt.val))
  | .insertRange l => ret (insertRangeT O G l) .nat
  | .insertRangeMove l => ret (insertRangeMoveT O G l) .nat
  | .assignRange l => ret (assignRangeT O G l) (fun _ => .unit)
  | .assignRangeMove l => ret (assignRangeMoveT O G l) (fun _ => .unit)
  | .clear => ret (clearT G) (fun _ => .unit)
  | .shrink n => ret (shrinkT G n) (fun _ => .unit)
  | op =>
    match op.uArg with
    | none => onT (step O op)
    | some p => do
      let _ ← useIt (⟨p, e⟩ : TIt Ptr)
      onT (step O op)

/-- `base-unordered-iterator.hpp` 148-152 `operator++` of an iterator from epoch `e`. -/
def uNextT (pos : Option Ptr) (e : Nat) : TM K V (Option Ptr) :=
  match pos with
  | none => M.ub
  | some p => do
    let _ ← useIt (⟨p, e⟩ : TIt Ptr)
    let it ← onT (uNext { pos := some p })
    pure it.pos

end Impl

end LRU
