import Verif.Spec.Many
import Verif.Spec.TimedMachine
/-!
# Programs with several textbook LRU maps, plain and with expiry

Like `Spec.Many`, for programs that use caches of both classes. Every step of a program is made at one point in time.
`Library.tells` computes everything the program learns, `World.tellsTimed` are the answers of the caches.
-/

set_option autoImplicit false

namespace LRU

variable {K V : Type}

/-! ### Programs that compile -/

/-- The types of caches: plain, or timed with a duration of so many clock ticks. -/
inductive CacheType where
  | plain
  | timed (res : Nat)
  deriving DecidableEq

/-- The type of a cache to be created. -/
def Kind.type : Kind → CacheType
  | .basic => .plain
  | .timed _ res => .timed res

/-- Two types of caches have the same base class: it does not depend on the duration. -/
def CacheType.sameBase : CacheType → CacheType → Bool
  | .plain, .plain | .timed _, .timed _ => true
  | _, _ => false

/-- The calls with keys, values and numbers of a type of caches. -/
def CacheType.offers : CacheType → Op K V → Bool
  | .plain, o => o.byKey
  | .timed _, o => o.byKeyTimed

/-- The types of the caches after a step, given the types of those created before; `none`: the step does not compile, or it is
not one of creation, destruction, calls with keys, values and numbers, `swap`, move and `==`. Caches
of different types can be compared, and swapped as objects of their base class, if they have the same base class. -/
def WOp.typed (types : List CacheType) : WOp K V → Option (List CacheType)
  | .create kind _ => some (types ++ [kind.type])
  | .destroy i => types[i]?.map fun _ => types
  | .op i o => types[i]?.bind fun t => if t.offers o then some types else none
  | .swap i j | .moveAssign i j => types[i]?.bind fun t => if types[j]? = some t then some types else none
  | .swapBase i j | .eq i j =>
    types[i]?.bind fun t => types[j]?.bind fun t' => if t.sameBase t' then some types else none
  | .moveCtor i => types[i]?.map fun t => types ++ [t]
  | _ => none

/-- All steps compile. -/
def compiles (types : List CacheType) : List (WOp K V) → Bool
  | [] => true
  | op :: ops =>
    match op.typed types with
    | none => false
    | some types' => compiles types' ops

/-! ### The textbook -/

section textbook

variable [KeyEqual K] [DecidableEq K] [DecidableEq V]

/-- A textbook LRU map, plain or with expiry. -/
inductive Book (K V : Type) where
  | plain (l : Lru K V)
  | timed (T : Terms) (l : TLru K V)

/-- Room for how many items; `none` after the map was moved from. -/
def Book.capacity : Book K V → Option Nat
  | .plain l => l.capacity
  | .timed _ l => l.capacity

/-- The answer to a call made at the time `now`, and the map afterwards. -/
def Book.reply (now : Int) (o : Op K V) : Book K V → Ans K V × Book K V
  | .plain l => ((l.reply o).1, .plain (l.reply o).2)
  | .timed T l => ((l.reply T now o).1, .timed T (l.reply T now o).2)

/-- What a constructor makes at the time `now`. -/
def Book.make (now : Int) (c : Ctor K V) : Kind → Book K V
  | .basic => .plain ((⟨some c.promised, []⟩ : Lru K V).storeAll c.pairs).2
  | .timed ttl res => .timed ⟨ttl, res⟩ (TLru.storeAll ⟨some c.promised, []⟩ now c.pairs).2

/-- What remains of a map that was moved from: the time to live. -/
def Book.hollow : Book K V → Book K V
  | .plain _ => .plain ⟨none, []⟩
  | .timed T _ => .timed T ⟨none, []⟩

/-- The contents of `a` with the time to live of `b`. -/
def Book.under (a b : Book K V) : Book K V :=
  match a, b with
  | .timed _ l, .timed T _ => .timed T l
  | a, _ => a

/-- Same pairs (and times) in the same order. -/
def Book.same : Book K V → Book K V → Bool
  | .plain a, .plain b => decide (a.items = b.items)
  | .timed _ a, .timed _ b => decide (a.items = b.items)
  | _, _ => false

/-- LRU maps by number; `none`: destroyed. -/
abbrev Library (K V : Type) := List (Option (Book K V))

/-- The map with that number, if it exists. -/
def Library.book (lib : Library K V) (i : Nat) : Option (Book K V) := lib[i]?.join

/-- What a program learns from a step made at the time `now`, and the maps afterwards; `none`: the step has no meaning. `swap`
exchanges the maps and the times to live; through the base class it exchanges the maps only. Move assignment exchanges the maps too, but both have the time to live of the source
afterwards. -/
def Library.reply (lib : Library K V) (now : Int) : WOp K V → Option (Ans K V × Library K V)
  | .create kind c => some (.unit, lib ++ [some (.make now c kind)])
  | .destroy i => (lib.book i).map fun _ => (.unit, lib.set i none)
  | .op i o => (lib.book i).bind fun b =>
    if b.capacity = none ∧ o.needsCapacity = true then none
    else some ((b.reply now o).1, lib.set i (some (b.reply now o).2))
  | .swap i j => (lib.book i).bind fun a => (lib.book j).map fun b => (.unit, (lib.set i (some b)).set j (some a))
  | .swapBase i j =>
    (lib.book i).bind fun a => (lib.book j).map fun b => (.unit, (lib.set i (some (b.under a))).set j (some (a.under b)))
  | .moveAssign i j => (lib.book i).bind fun a => (lib.book j).map fun b => (.unit, (lib.set i (some b)).set j (some (a.under b)))
  | .moveCtor i => (lib.book i).map fun a => (.unit, lib.set i (some a.hollow) ++ [some a])
  | .eq i j => (lib.book i).bind fun a => (lib.book j).map fun b => (.bool (a.same b), lib)
  | _ => none

/-- Everything a program learns from steps made at the given times, up to its end. -/
def Library.tells (lib : Library K V) : List (WOp K V × Int) → List (Tidings K V)
  | [] => []
  | (op, now) :: ops =>
    match lib.reply now op with
    | none => [.undefined]
    | some (.terminated, _) => [.says .terminated]
    | some (a, lib') => .says a :: Library.tells lib' ops

end textbook

/-! ### The caches -/

/-- The cache as a textbook map. -/
def asBook (c : Cache K V) : Book K V :=
  match c.kind with
  | .basic => .plain (asLru c)
  | .timed ttl res => .timed ⟨ttl, res⟩ (asTimed c)

/-- The caches as textbook maps. -/
def World.library (w : World K V) : Library K V := w.caches.map (Option.map asBook)

/-- The caches have these types. -/
structure World.HasTypes (w : World K V) (types : List CacheType) : Prop where
  length : types.length = w.caches.length
  type : ∀ (i : Nat) (c : Cache K V), w.caches[i]? = some (some c) → types[i]? = some c.kind.type

/-- What a program learns from the outcome of a step. `KeyNotFound` and `KeyExpired` are not told apart. -/
def WOp.toldTimed (op : WOp K V) : Out (World K V) (Res K V) → Tidings K V
  | .throw .keyExpired _ => .says .notFound
  | o => op.told o

/-- Everything a program learns, up to its end. Exceptions are caught. -/
def World.tellsTimed [KeyEqual K] [DecidableEq K] [DecidableEq V] (O : Oracle K V) :
    World K V → List (WOp K V) → List (Tidings K V)
  | _, [] => []
  | w, op :: ops =>
    op.toldTimed (Impl.wstep O op w) ::
      match Impl.wstep O op w with
      | .ok _ w' | .throw _ w' => World.tellsTimed O w' ops
      | _ => []

/-- The steps are made at the given times: the clock shows that time whenever a step reads it. -/
def World.Paced [KeyEqual K] [DecidableEq K] [DecidableEq V] (O : Oracle K V) : World K V → List (WOp K V × Int) → Prop
  | _, [] => True
  | w, (op, now) :: ops =>
    match Impl.wstep O op w with
    | .ok _ w' | .throw _ w' => (∀ n, w.g.ticks ≤ n → n < w'.g.ticks → O.clock n = now) ∧ World.Paced O w' ops
    | _ => True

end LRU
