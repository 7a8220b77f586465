import Verif.Spec.Textbook
/-!
# The textbook LRU map as a machine that answers calls

`Lru.act` (`Spec.Textbook`) says what happens to the contents; `Lru.reply` also says what a call returns. `answers` are the
answers a program gets that uses a cache through keys and values only.
-/

set_option autoImplicit false

namespace LRU

variable {K V : Type}

/-- What a program learns from a call. Iterators are reported as the key and the value they denote. -/
inductive Ans (K V : Type) where
  | unit
  | bool (b : Bool)
  | nat (n : Nat)
  | key (k : K)
  | value (v : V)
  /-- an iterator to an item, or past the end -/
  | item (x : Option (K × V))
  /-- the result of an insertion -/
  | stored (new : Bool) (x : Option (K × V))
  /-- `KeyNotFound` was thrown -/
  | notFound
  /-- the program was terminated -/
  | terminated
  deriving DecidableEq

/-- The calls that take and return keys, values and numbers. -/
def Op.byKey : Op K V → Bool
  | .contains _ | .find _ | .lookup _ | .insert _ _ | .emplace _ _ | .insertRange _ | .insertRangeMove _
  | .assignRange _ | .assignRangeMove _ | .erase _ | .clear | .shrink _ | .setCapacity _ | .size | .capacity
  | .spaceLeft | .isEmpty | .isFull | .front | .back => true
  | _ => false

/-! ### The textbook -/

section textbook

variable [KeyEqual K]

/-- Room for how many items. -/
def Lru.limit (l : Lru K V) : Nat := l.capacity.getD 0

/-- The answer to storing a value. -/
def Lru.storing (l : Lru K V) (k : K) (v : V) : Ans K V :=
  if l.limit = 0 then .stored false none
  else match l.item k with
  | some x => .stored false (some (x.1, v))
  | none => .stored true (some (k, v))

/-- Store the pairs one by one; how many of the keys were new when they were stored. -/
def Lru.storeAll (l : Lru K V) : List (K × V) → Nat × Lru K V
  | [] => (0, l)
  | (k, v) :: rest =>
    let r := (l.act (.put k v)).storeAll rest
    (r.1 + (if l.limit ≠ 0 ∧ l.item k = none then 1 else 0), r.2)

/-- The answer of the textbook LRU map to a call, and its contents afterwards. -/
def Lru.reply (l : Lru K V) : Op K V → Ans K V × Lru K V
  | .contains k => (.bool (l.item k).isSome, l.act (.use k))
  | .find k => (.item (l.item k), l.act (.use k))
  | .lookup k => (match l.item k with | some x => .value x.2 | none => .notFound, l.act (.use k))
  | .insert k v | .emplace k v => (l.storing k v, l.act (.put k v))
  | .insertRange r | .insertRangeMove r => (.nat (l.storeAll r).1, (l.storeAll r).2)
  | .assignRange r | .assignRangeMove r => (.unit, (((l.act .empty).act (.raise r.length)).storeAll r).2)
  | .erase k => (.bool (l.item k).isSome, l.act (.remove k))
  | .clear => (.unit, l.act .empty)
  | .shrink n => (.unit, l.act (.keep n))
  | .setCapacity n => (.unit, l.act (.limit n))
  | .size => (.nat l.items.length, l)
  | .capacity => (.nat l.limit, l)
  | .spaceLeft => (.nat (l.limit - l.items.length), l)
  | .isEmpty => (.bool l.items.isEmpty, l)
  | .isFull => (.bool (l.items.length == l.limit), l)
  | .front => (match l.items.getLast? with | some x => .key x.1 | none => .terminated, l)
  | .back => (match l.items.head? with | some x => .key x.1 | none => .terminated, l)
  | _ => (.unit, l)

/-- The answers to a sequence of calls, up to the end of the program. -/
def Lru.replies (l : Lru K V) : List (Op K V) → List (Ans K V)
  | [] => []
  | op :: ops =>
    match (l.reply op).1 with
    | .terminated => [.terminated]
    | a => a :: (l.reply op).2.replies ops

end textbook

/-! ### The cache -/

/-- The item at an address. -/
def itemAt (c : Cache K V) (p : Option Ptr) : Option (K × V) :=
  p.bind fun p => ((elements c).find? (fun n => n.addr == p)).map MapNode.pair

/-- What a program learns from the result of a call that returned, `c` being the cache afterwards. -/
def Res.ans (c : Cache K V) : Res K V → Option (Ans K V)
  | .unit => some .unit
  | .bool b => some (.bool b)
  | .nat n => some (.nat n)
  | .optNat n => n.map .nat
  | .key k => some (.key k)
  | .value v => some (.value v)
  | .ref _ v => some (.value v)
  | .pos p => some (.item (itemAt c p))
  | .inserted b p => some (.stored b (itemAt c p))

/-- What a program learns from an outcome. -/
def Out.ans : Out (St (Cache K V) K V) (Res K V) → Option (Ans K V)
  | .ok r s => r.ans s.c
  | .throw .keyNotFound _ => some .notFound
  | .terminate => some .terminated
  | _ => none

/-- The answers to a sequence of calls, up to the end of the program; `none` for an outcome that is not an answer. -/
def answers [KeyEqual K] [DecidableEq K] (O : Oracle K V) : St (Cache K V) K V → List (Op K V) → List (Option (Ans K V))
  | _, [] => []
  | s, op :: ops =>
    (Impl.step O op s).ans ::
      match Impl.step O op s with
      | .ok _ s' | .throw _ s' => answers O s' ops
      | _ => []

end LRU
