import Verif.Spec.Trace
/-!
# A textbook LRU map

`Lru` is the specification the cache is compared with: a capacity and a list of key-value pairs, least recently used
first. `Lru.act` says what storing, using and removing do to it. `Op.acts` says which of these a call on a cache
amounts to; iterators are resolved to keys in the state before the call.
-/

set_option autoImplicit false

namespace LRU

variable {K V : Type}

/-- Capacity (`none`: not set, in a moved-from cache) and contents, least recently used first. -/
structure Lru (K V : Type) where
  capacity : Option Nat
  items : List (K × V)

/-- What can happen to an LRU map. -/
inductive Act (K V : Type) where
  /-- store a value for a key -/
  | put (k : K) (v : V)
  /-- use a key -/
  | use (k : K)
  /-- change the value of a key without using it -/
  | set (k : K) (v : V)
  | remove (k : K)
  /-- remove everything -/
  | empty
  /-- remove all but the `n` most recently used -/
  | keep (n : Nat)
  /-- change the capacity, removing the least recently used items that are too many -/
  | limit (n : Nat)
  /-- raise the capacity to `n` if it is lower -/
  | raise (n : Nat)

variable [KeyEqual K]

/-- The items for other keys. -/
def Lru.others (l : Lru K V) (k : K) : List (K × V) := l.items.filter (fun x => !keq x.1 k)

/-- The item for a key. -/
def Lru.item (l : Lru K V) (k : K) : Option (K × V) := l.items.find? (fun x => keq x.1 k)

/-- The textbook definition. An update keeps the stored key and makes it the most recently used; storing a new key in a
full map drops the least recently used item; a map of capacity zero stores nothing. -/
def Lru.act (l : Lru K V) : Act K V → Lru K V
  | .put k v =>
    match l.capacity with
    | none => l
    | some 0 => l
    | some (n + 1) =>
      match l.item k with
      | some x => { l with items := l.others k ++ [(x.1, v)] }
      | none => { l with items := (if l.items.length ≤ n then l.items else l.items.tail) ++ [(k, v)] }
  | .use k =>
    match l.item k with
    | some x => { l with items := l.others k ++ [x] }
    | none => l
  | .set k v => { l with items := l.items.map (fun x => if keq x.1 k then (x.1, v) else x) }
  | .remove k => { l with items := l.others k }
  | .empty => { l with items := [] }
  | .keep n => { l with items := l.items.drop (l.items.length - n) }
  | .limit n => ⟨some n, l.items.drop (l.items.length - n)⟩
  | .raise n =>
    match l.capacity with
    | none => l
    | some m => { l with capacity := some (max m n) }

/-- One after the other. -/
def Lru.run (l : Lru K V) (acts : List (Act K V)) : Lru K V := acts.foldl Lru.act l

omit [KeyEqual K]

/-- The cache as an LRU map. -/
def asLru (c : Cache K V) : Lru K V := ⟨c.capacity, entries c⟩

/-- The key of the element at an address (unordered iterator, reference). -/
def keyOfNode (c : Cache K V) (p : Ptr) : Option K := ((elements c).find? (fun n => n.addr == p)).map (·.key)

/-- The key of the element an ordered iterator denotes. -/
def keyAtPos (c : Cache K V) (q : Ptr) : Option K := (c.order.find? (fun l => l.addr == q)).bind fun l => keyOfNode c l.ref

/-- What a call amounts to when it returns. An access that reports its key is a use of that key. -/
def Op.acts (op : Op K V) (r : Res K V) (before after : Cache K V) : List (Act K V) :=
  match op with
  | .insert k v | .emplace k v => [.put k v]
  | .insertRange l | .insertRangeMove l => l.map fun p => .put p.1 p.2
  | .assignRange l | .assignRangeMove l => .empty :: .raise l.length :: l.map fun p => .put p.1 p.2
  | .contains k | .find k | .lookup k => if found (.ok r) then [.use k] else []
  | .erase k => [.remove k]
  | .eraseU (some p) => (keyOfNode before p).toList.map .remove
  | .eraseO (some q) => (keyAtPos before q).toList.map .remove
  | .write p v => (keyOfNode before p).toList.map fun k => .set k v
  | .clear => [.empty]
  | .shrink n => [.keep n]
  | .setCapacity n => [.limit n]
  | .clearExpired => [.keep (count after)]
  | _ => []

/-- What a call that throws may have done: it stored an initial part of a range, or `lookup` on a timed cache used the
key before it found the entry expired. Other calls that throw do nothing. -/
def Op.undone (op : Op K V) (before : Cache K V) : List (Act K V) :=
  match op with
  | .insertRange l | .insertRangeMove l => l.map fun p => .put p.1 p.2
  | .assignRange l | .assignRangeMove l => .empty :: .raise l.length :: l.map fun p => .put p.1 p.2
  | .lookup k => if before.kind = .basic then [] else [.use k]
  | _ => []

/-- What a history (newest call first) amounts to, oldest first. Every call that returned contributes all it amounts to,
a call that threw contributes an initial part of what it was going to do. -/
inductive Plays : List (Call K V) → List (Act K V) → Prop
  | nil : Plays [] []
  | ok {h acts c r} : Plays h acts → c.res = .ok r → Plays (c :: h) (acts ++ c.op.acts r c.before.c c.after.c)
  | throw {h acts c e} (m : Nat) : Plays h acts → c.res = .error e → Plays (c :: h) (acts ++ (c.op.undone c.before.c).take m)

/-- What the calls that returned amount to, oldest first (for concrete histories in which no range call and no `lookup`
on a timed cache threw). -/
def played : List (Call K V) → List (Act K V)
  | [] => []
  | c :: h =>
    match c.res with
    | .ok r => played h ++ c.op.acts r c.before.c c.after.c
    | .error _ => played h

theorem plays_played (h : List (Call K V)) : Plays h (played h) := by
  induction h with
  | nil => exact .nil
  | cons c h ih =>
    unfold played
    cases hc : c.res with
    | ok r => exact .ok ih hc
    | error e =>
      have := Plays.throw 0 ih hc
      rwa [List.take_zero, List.append_nil] at this

/-- The keys stored or used, oldest first. -/
def uses (acts : List (Act K V)) : List K :=
  acts.filterMap fun
    | .put k _ => some k
    | .use k => some k
    | _ => none

/-- The values written, with their keys, oldest first. -/
def writes (acts : List (Act K V)) : List (K × V) :=
  acts.filterMap fun
    | .put k v => some (k, v)
    | .set k v => some (k, v)
    | _ => none

/-- How long ago the key occurred in the log (oldest first): `0` for the last element. Not less than the length of the
log if the key does not occur. -/
def age [KeyEqual K] (log : List K) (k : K) : Nat := log.reverse.findIdx (fun x => keq x k)

/-- The value last written for the key. -/
def latest [KeyEqual K] (log : List (K × V)) (k : K) : Option V := (log.reverse.find? (fun x => keq x.1 k)).map (·.2)

end LRU
