import Verif.Spec.Machine
import Verif.Spec.Time
/-!
# A textbook LRU map with expiry, as a machine that answers calls

The items of the map carry the time at which their key was inserted. An item older than the time to live answers accesses as if it
were not there; it stays in the map, and counts, until it is removed. Every call takes place at one point in time.
-/

set_option autoImplicit false

namespace LRU

variable {K V : Type}

/-- Time to live in units of `res` clock ticks. -/
structure Terms where
  ttl : Int
  res : Nat

/-- An item inserted at `time` has expired at `now`: its age, in whole units, exceeds the time to live. -/
def Terms.expired (T : Terms) (now time : Int) : Bool := decide (T.ttl < (now - time).tdiv T.res)

/-- The calls of a timed cache that take and return keys, values and numbers; there is no `front` or `back`. -/
def Op.byKeyTimed : Op K V → Bool
  | .front | .back => false
  | .allExpired | .clearExpired | .hasExpired _ => true
  | op => op.byKey

/-- The calls among them that plain caches have too. -/
def Op.byKeyBoth (op : Op K V) : Bool := op.byKey && op.byKeyTimed

/-! ### The textbook -/

section textbook

variable [KeyEqual K]

/-- Items with their times, least recently used first. -/
abbrev TLru (K V : Type) := Lru K (V × Int)

/-- The item for a key, unless it has expired. -/
def TLru.fresh (l : TLru K V) (T : Terms) (now : Int) (k : K) : Option (K × V) :=
  match l.item k with
  | some (k', v, time) => if T.expired now time then none else some (k', v)
  | none => none

/-- Use a key; expired items are not used. -/
def TLru.touch (l : TLru K V) (T : Terms) (now : Int) (k : K) : TLru K V :=
  if (l.fresh T now k).isSome then l.act (.use k) else l

/-- Store a value. The time of a key that is stored already does not change, even if it has expired. -/
def TLru.store (l : TLru K V) (now : Int) (k : K) (v : V) : TLru K V :=
  l.act (.put k (v, match l.item k with | some x => x.2.2 | none => now))

/-- The answer to storing a value. -/
def TLru.storing (l : TLru K V) (k : K) (v : V) : Ans K V :=
  if l.limit = 0 then .stored false none
  else match l.item k with
  | some x => .stored false (some (x.1, v))
  | none => .stored true (some (k, v))

/-- Store the pairs one by one; how many of the keys were new when they were stored. -/
def TLru.storeAll (l : TLru K V) (now : Int) : List (K × V) → Nat × TLru K V
  | [] => (0, l)
  | (k, v) :: rest =>
    let r := (l.store now k v).storeAll now rest
    (r.1 + (if l.limit ≠ 0 ∧ l.item k = none then 1 else 0), r.2)

/-- The answer to a call made at the time `now`, and the contents afterwards. -/
def TLru.reply (l : TLru K V) (T : Terms) (now : Int) : Op K V → Ans K V × TLru K V
  | .contains k => (.bool (l.fresh T now k).isSome, l.touch T now k)
  | .find k => (.item (l.fresh T now k), l.touch T now k)
  | .lookup k => (match l.fresh T now k with | some x => .value x.2 | none => .notFound, l.touch T now k)
  | .insert k v | .emplace k v => (l.storing k v, l.store now k v)
  | .insertRange r | .insertRangeMove r => (.nat (l.storeAll now r).1, (l.storeAll now r).2)
  | .assignRange r | .assignRangeMove r => (.unit, (TLru.storeAll ((l.act .empty).act (.raise r.length)) now r).2)
  | .erase k => (.bool (l.item k).isSome, l.act (.remove k))
  | .clear => (.unit, l.act .empty)
  | .shrink n => (.unit, l.act (.keep n))
  | .setCapacity n => (.unit, l.act (.limit n))
  | .size => (.nat l.items.length, l)
  | .capacity => (.nat l.limit, l)
  | .spaceLeft => (.nat (l.limit - l.items.length), l)
  | .isEmpty => (.bool l.items.isEmpty, l)
  | .isFull => (.bool (l.items.length == l.limit), l)
  | .hasExpired k => (.bool (match l.item k with | some x => T.expired now x.2.2 | none => false), l)
  -- only the most recently used item is looked at
  | .allExpired => (.bool (match l.items.getLast? with | some x => T.expired now x.2.2 | none => true), l)
  -- from the least recently used item on, up to the first one that has not expired
  | .clearExpired => (.nat (l.items.takeWhile fun x => T.expired now x.2.2).length,
      { l with items := l.items.dropWhile fun x => T.expired now x.2.2 })
  | _ => (.unit, l)

/-- The answers to calls made at the given times. -/
def TLru.replies (l : TLru K V) (T : Terms) : List (Op K V × Int) → List (Ans K V)
  | [] => []
  | (op, now) :: ops => (l.reply T now op).1 :: TLru.replies (l.reply T now op).2 T ops

end textbook

/-! ### The cache -/

/-- The cache as a map with times. -/
def asTimed (c : Cache K V) : TLru K V := ⟨c.capacity, (elements c).map fun n => (n.key, n.info.value, n.info.time)⟩

/-- What a program learns from an outcome. `KeyNotFound` and `KeyExpired` are not told apart. -/
def Out.timedAns : Out (St (Cache K V) K V) (Res K V) → Option (Ans K V)
  | .throw .keyExpired _ => some .notFound
  | o => o.ans

/-- The answers to a sequence of calls, up to the end of the program; `none` for an outcome that is not an answer. -/
def timedAnswers [KeyEqual K] [DecidableEq K] (O : Oracle K V) : St (Cache K V) K V → List (Op K V) → List (Option (Ans K V))
  | _, [] => []
  | s, op :: ops =>
    (Impl.step O op s).timedAns ::
      match Impl.step O op s with
      | .ok _ s' | .throw _ s' => timedAnswers O s' ops
      | _ => []

/-- The calls are made at the given times: the clock shows that time whenever a call reads it. -/
def Paced [KeyEqual K] [DecidableEq K] (O : Oracle K V) : St (Cache K V) K V → List (Op K V × Int) → Prop
  | _, [] => True
  | s, (op, now) :: ops =>
    match Impl.step O op s with
    | .ok _ s' | .throw _ s' => (∀ n, s.g.ticks ≤ n → n < s'.g.ticks → O.clock n = now) ∧ Paced O s' ops
    | _ => True

end LRU
