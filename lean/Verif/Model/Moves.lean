import Verif.Model.Ops
/-!
# Which keys and values are copied and moved

The insertions of `Model.Cache` with a ledger that records every construction and assignment of a key or value. They consist of
the same steps (`Props.Moves`: without the ledger they are the functions of the model). An entry is made when the operation
succeeds; an operation that throws has made nothing. Elements of ranges are pairs of keys and values, not of types that
convert to them. Iterating over a range, and creating the range or initializer list, is the caller's business and not recorded.

No other member function constructs or assigns keys or values: lookups, iterators and callbacks hand out references,
`_order` (`definitions.hpp` 68-70) holds references to the keys in `_map`, and the hash table moves nodes, not elements.
-/

set_option autoImplicit false

namespace LRU

/-- What happened to keys (`k…`) and values (`v…`) during a call. -/
structure Ledger where
  /-- made by some constructor from the caller's arguments, neither copy nor move constructor -/
  kMade : Nat := 0
  kCopied : Nat := 0
  kMoved : Nat := 0
  vMade : Nat := 0
  /-- copy constructions and copy assignments -/
  vCopied : Nat := 0
  vMoved : Nat := 0
  /-- objects of the caller that were moved from -/
  kTaken : Nat := 0
  vTaken : Nat := 0
  deriving DecidableEq, Repr

namespace Ledger

instance : Add Ledger := ⟨fun a b => ⟨a.kMade + b.kMade, a.kCopied + b.kCopied, a.kMoved + b.kMoved, a.vMade + b.vMade,
  a.vCopied + b.vCopied, a.vMoved + b.vMoved, a.kTaken + b.kTaken, a.vTaken + b.vTaken⟩⟩
instance : Zero Ledger := ⟨{}⟩

end Ledger

/-- What `emplace` is given to construct a key or a value from: arguments for some other constructor, an lvalue of that very
type, or an rvalue of it. -/
inductive Arg where
  | args | lvalue | rvalue
  deriving DecidableEq

/-- `internal/utility.hpp` 47-60 `construct_from_tuple<Key>`: one construction. -/
def Arg.key : Arg → Ledger
  | .args => { kMade := 1 }
  | .lvalue => { kCopied := 1 }
  | .rvalue => { kMoved := 1, kTaken := 1 }

/-- The same for a value (`information.hpp` 74-79, 134-140 or `construct_from_tuple<Value>`). -/
def Arg.value : Arg → Ledger
  | .args => { vMade := 1 }
  | .lvalue => { vCopied := 1 }
  | .rvalue => { vMoved := 1, vTaken := 1 }

/-- A body with a ledger. -/
def Kept (σ α : Type) : Type := σ → Out σ α × Ledger

namespace Kept

variable {σ α β : Type}

/-- Sequencing: the ledgers add up. -/
def bind (m : Kept σ α) (f : α → Kept σ β) : Kept σ β := fun s =>
  match m s with
  | (.ok a s', l) => ((f a s').1, l + (f a s').2)
  | (.throw e s', l) => (.throw e s', l)
  | (.ub, l) => (.ub, l)
  | (.terminate, l) => (.terminate, l)
  | (.diverge, l) => (.diverge, l)

instance : Monad (Kept σ) where
  pure a := fun s => (.ok a s, 0)
  bind := Kept.bind

/-- A step that leaves an entry if it succeeds. -/
def note (l : Ledger) (m : M σ α) : Kept σ α := fun s =>
  match m s with
  | .ok a s' => (.ok a s', l)
  | o => (o, 0)

/-- A step that handles no keys or values. -/
def plain (m : M σ α) : Kept σ α := note 0 m

/-- The body without the ledger. -/
def body (m : Kept σ α) : M σ α := fun s => (m s).1

end Kept

namespace Moves

open Kept

variable {K V : Type} [KeyEqual K] [DecidableEq K] (O : Oracle K V)

/-- Bodies of member functions with a ledger. -/
abbrev CM (K V α : Type) := Kept (St (Cache K V) K V) α

/-- `base-cache.hpp` 911-914 and 1051-1053. `l`: what constructing the pair in the new map node does; the `Information` object
is moved into it (`information.hpp` 85, implicitly for `TimedInformation`). -/
def insertNode (l : Ledger) (k : K) (v : V) (t : Int) : CM K V Ptr := do
  let p ← note l (Impl.mapEmplace O k v t)
  let q ← plain (Impl.insertNewKey O p)
  plain (Impl.setOrder p q)
  pure p

/-- `base-cache.hpp` 1407-1413 `_move_to_front(MapIterator, const Value&)`: the value is copied. -/
def moveToFrontAssign (n : MapNode K V) (v : V) : CM K V Unit := do
  plain (Impl.moveToFront n.info.order)
  note { vCopied := 1 } (Impl.tryAssign O n.addr v)

/-- `base-cache.hpp` 900-923 `insert(const Key&, const Value&)`: the value is copied into an `Information` object
(`information.hpp` 53-56), the key into the map node. -/
def insert (k : K) (v : V) : CM K V (Bool × Option Ptr) := do
  if (← plain Impl.readCapacity) = 0 then pure (false, none)
  else match ← plain (Impl.mapFind k) with
  | none => do
    let t ← plain (Impl.insertionTime O)
    note { vCopied := 1 } (attempt O .construct)
    let p ← insertNode O { kCopied := 1, vMoved := 1 } k v t
    plain (Impl.setLast p)
    pure (true, some p)
  | some n => do
    moveToFrontAssign O n v
    plain (Impl.setLast n.addr)
    pure (false, some n.addr)

/-- `base-cache.hpp` 1041-1064 and 1082-1087 `emplace`: the key is constructed and moved into the map node (1051
`std::move(key)`); the value is constructed inside an `Information` object, or alone and then copied (1059-1060). -/
def emplace (ka va : Arg) (k : K) (v : V) : CM K V (Bool × Option Ptr) := do
  if (← plain Impl.readCapacity) = 0 then pure (false, none)
  else do
    note ka.key (attempt O .construct)
    match ← plain (Impl.mapFind k) with
    | none => do
      note va.value (attempt O .construct)
      let t ← plain (Impl.insertionTime O)
      let p ← insertNode O { kMoved := 1, vMoved := 1 } k v t
      plain (Impl.setLast p)
      pure (true, some p)
    | some n => do
      note va.value (attempt O .construct)
      moveToFrontAssign O n v
      plain (Impl.setLast n.addr)
      pure (false, some n.addr)

/-- `base-cache.hpp` 940-968, 1003-1005. -/
def insertRange : List (K × V) → CM K V Nat
  | [] => pure 0
  | (k, v) :: rest => do
    let r ← insert O k v
    let n ← insertRange rest
    pure ((if r.1 then 1 else 0) + n)

/-- `base-cache.hpp` 980-989 `insert(Range&&)`: 984-985 `emplace(std::move(pair.first), std::move(pair.second))`. -/
def insertRangeMove : List (K × V) → CM K V Nat
  | [] => pure 0
  | (k, v) :: rest => do
    let r ← emplace O .rvalue .rvalue k v
    let n ← insertRangeMove rest
    pure ((if r.1 then 1 else 0) + n)

/-- The calls that put elements into a cache. -/
inductive MOp (K V : Type) where
  | insert (k : K) (v : V)
  | emplace (ka va : Arg) (k : K) (v : V)
  | insertRange (l : List (K × V))
  | insertRangeMove (l : List (K × V))
  | assignRange (l : List (K × V))
  | assignRangeMove (l : List (K × V))

/-- The call in the vocabulary of `Model.Ops`. -/
def MOp.op {K V : Type} : MOp K V → Op K V
  | .insert k v => .insert k v
  | .emplace _ _ k v => .emplace k v
  | .insertRange l => .insertRange l
  | .insertRangeMove l => .insertRangeMove l
  | .assignRange l => .assignRange l
  | .assignRangeMove l => .assignRangeMove l

/-- Run a call with its ledger. -/
def step : MOp K V → CM K V (Res K V)
  | .insert k v => do
    let r ← insert O k v
    pure (.inserted r.1 r.2)
  | .emplace ka va k v => do
    let r ← emplace O ka va k v
    pure (.inserted r.1 r.2)
  | .insertRange l => do
    let n ← insertRange O l
    pure (.nat n)
  | .insertRangeMove l => do
    let n ← insertRangeMove O l
    pure (.nat n)
  | .assignRange l => do
    plain (Impl.clearAndIncreaseCapacity l.length)
    let _ ← insertRange O l
    pure .unit
  | .assignRangeMove l => do
    plain (Impl.clearAndIncreaseCapacity l.length)
    let _ ← insertRangeMove O l
    pure .unit

end Moves

/-- The ledger of a call. -/
def ledger {K V : Type} [KeyEqual K] [DecidableEq K] (O : Oracle K V) (m : Moves.MOp K V) (s : St (Cache K V) K V) : Ledger :=
  (Moves.step O m s).2

end LRU
