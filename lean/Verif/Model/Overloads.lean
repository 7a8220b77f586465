import Verif.Model.World
/-!
# Which overload is called, and what it leaves of its argument

`operator=`, `insert` and the constructors are overloaded on the value category of a range. A cache is itself a range, so
these templates also compete with the copy and move operations of caches.

Overload resolution is modelled for one argument of class type, with the rules of the C++ standard that matter here
([over.ics.rank] and [over.match.best]): a parameter that adds no `const` is better; for rvalues an rvalue reference is
better; then a function that is not a template is better; then the more specialised template is better.
-/

set_option autoImplicit false

namespace LRU

/-- An argument as overload resolution sees it: a variable, a constant, a temporary or `std::move(..)`. -/
inductive Category where
  | lvalue | constLvalue | rvalue
  deriving DecidableEq, Repr

/-- The overloads, by their parameter. The first three are templates, the next two the copy and move operations of the
class (`const T&` and `T&&` for the class `T` itself), the last two those of its base class (`const BaseCache&` and
`BaseCache&&`). -/
inductive Overload where
  | constRange  -- `const Range&`
  | range       -- `Range&`
  | forwarded   -- `Range&&`, a forwarding reference
  | copy
  | move
  | copyBase
  | moveBase
  deriving DecidableEq, Repr

/-- The kinds of references a parameter can be. -/
inductive RefKind where
  | ref | constRef | rvalueRef
  deriving DecidableEq, Repr

namespace Overload

/-- The parameter after template argument deduction; `none`: not viable. -/
def param : Overload → Category → Option RefKind
  | .constRange, _ => some .constRef
  | .range, .lvalue => some .ref
  | .range, .constLvalue => some .constRef
  | .range, .rvalue => none
  | .forwarded, .lvalue => some .ref
  | .forwarded, .constLvalue => some .constRef
  | .forwarded, .rvalue => some .rvalueRef
  | .copy, _ | .copyBase, _ => some .constRef
  | .move, .rvalue | .moveBase, .rvalue => some .rvalueRef
  | .move, _ | .moveBase, _ => none

/-- The conversion the argument needs: none, or to the base class, which is worse than any binding without conversion. -/
def conversion : Overload → Nat
  | .copyBase | .moveBase => 2
  | _ => 0

/-- How good the binding is; smaller is better. -/
def binding : RefKind → Nat
  | .ref => 0
  | .rvalueRef => 0
  | .constRef => 1

/-- Among equally good bindings: not a template, `const Range&`, `Range&`, `Range&&`. -/
def specialised : Overload → Nat
  | .copy | .move | .copyBase | .moveBase => 0
  | .constRange => 1
  | .range => 2
  | .forwarded => 3

/-- `a` is a better match than `b`. -/
def better (arg : Category) (a b : Overload) : Bool :=
  match a.param arg, b.param arg with
  | some p, some q =>
    let x := a.conversion + binding p
    let y := b.conversion + binding q
    x < y || (x == y && specialised a < specialised b)
  | some _, none => true
  | none, _ => false

/-- Overload resolution: the candidate that is viable and better than all others. -/
def resolve (cands : List Overload) (arg : Category) : Option Overload :=
  cands.find? fun a => (a.param arg).isSome && cands.all fun b => b == a || better arg a b

end Overload

/-- `base-cache.hpp` 541, 554: `operator=` for ranges. -/
def assignRangeOverloads : List Overload := [.constRange, .forwarded]

/-- `base-cache.hpp` 963, 980: `insert` for ranges. The constructors 403-461 of `BaseCache` are overloaded alike. -/
def insertOverloads : List Overload := [.range, .forwarded]

/-- `operator=` for caches of the same type: the implicit operators of `Cache` and `TimedCache`, and those of `BaseCache`
(`base-cache.hpp` 507, 522, 541, 554), which the classes import (`base-cache.hpp` 63 `using super::operator=`). -/
def assignCacheOverloads : List Overload := [.copy, .move, .copyBase, .moveBase, .constRange, .forwarded]

/-- `operator=` for timed caches with different `Duration`s: the same without the implicit operators, for which the argument
would have to be converted by a constructor, and those that could are `explicit` or need a time to live (`timed-cache.hpp`
88-178). -/
def assignDurationOverloads : List Overload := [.copyBase, .moveBase, .constRange, .forwarded]

/-- `operator=` for a plain and a timed cache: their base classes differ too. -/
def assignClassOverloads : List Overload := [.constRange, .forwarded]

/-- `operator=` of `BaseCache` called on references to the base class: 507, 522, 541, 554. -/
def assignBaseOverloads : List Overload := [.copy, .move, .constRange, .forwarded]

/-- Direct initialisation `Cache c(arg)`: the implicit copy and move constructors of `Cache`, and `cache.hpp` 127-132
(`explicit`, so `Cache c = arg` does not consider it; the constructors of `TimedCache` for ranges take the time to live
first and do not compete). -/
def constructCacheOverloads : List Overload := [.copy, .move, .forwarded]

/-- What is left of a key and of a value that was moved from (for caches as source, keys are `const` and are copied). -/
structure MovedFrom (K V : Type) where
  key : K → K
  value : V → V

namespace Impl

variable {K V : Type} [KeyEqual K] [DecidableEq K] [DecidableEq V] (O : Oracle K V)

/-- `base-cache.hpp` 980-989 `insert(Range&&)`, with what is left of the range. With capacity 0 `emplace` returns before
it constructs anything from its arguments (1045). Simplified: a pair whose insertion throws is left as it was. -/
def moveRange (mv : MovedFrom K V) : List (K × V) → St (Cache K V) K V → Out (St (Cache K V) K V) Nat × List (K × V)
  | [], s => (.ok 0 s, [])
  | (k, v) :: rest, s =>
    match emplace O k v s with
    | .ok r s1 =>
      let p := if r.2 = none then (k, v) else (mv.key k, mv.value v)
      match moveRange mv rest s1 with
      | (.ok n s2, left) => (.ok ((if r.1 then 1 else 0) + n) s2, p :: left)
      | (o, left) => (o, p :: left)
    | .throw e s1 => (.throw e s1, (k, v) :: rest)
    | .ub => (.ub, (k, v) :: rest)
    | .terminate => (.terminate, (k, v) :: rest)
    | .diverge => (.diverge, (k, v) :: rest)

/-- `cache.insert(range)` for an argument of the given category, with what is left of the range. -/
def insertFrom (mv : MovedFrom K V) (arg : Category) (l : List (K × V)) (s : St (Cache K V) K V) :
    Option (Out (St (Cache K V) K V) Nat × List (K × V)) :=
  match Overload.resolve insertOverloads arg with
  | some .range => some (insertRange O l s, l)
  | some .forwarded => some (moveRange O mv l s)
  | _ => none

/-- `base-cache.hpp` 554-558 `operator=(Range&&)`, with what is left of the range. `std::move(range)` is an rvalue
whatever the argument was. -/
def assignMoving (mv : MovedFrom K V) (l : List (K × V)) (s : St (Cache K V) K V) :
    Out (St (Cache K V) K V) Unit × List (K × V) :=
  match clearAndIncreaseCapacity l.length s with
  | .ok _ s1 =>
    match moveRange O mv l s1 with
    | (.ok _ s2, left) => (.ok () s2, left)
    | (.throw e s2, left) => (.throw e s2, left)
    | (.ub, left) => (.ub, left)
    | (.terminate, left) => (.terminate, left)
    | (.diverge, left) => (.diverge, left)
  | .throw e s1 => (.throw e s1, l)
  | .ub => (.ub, l)
  | .terminate => (.terminate, l)
  | .diverge => (.diverge, l)

/-- `cache = range` for an argument of the given category, with what is left of the range. -/
def assignFrom (mv : MovedFrom K V) (arg : Category) (l : List (K × V)) (s : St (Cache K V) K V) :
    Option (Out (St (Cache K V) K V) Unit × List (K × V)) :=
  match Overload.resolve assignRangeOverloads arg with
  | some .constRange => some (assignRange O l s, l)
  | some .forwarded => some (assignMoving O mv l s)
  | _ => none

/-- The loop of `insert(Range&&)` (`base-cache.hpp` 980-989) over the elements of cache `j`, moving their values into
cache `i`. `pair.first` is a `const Key&` (`entry.hpp` 126): keys are copied. -/
def moveElements (mv : V → V) (i j : Nat) : List (MapNode K V) → M (World K V) Unit
  | [] => pure ()
  | n :: rest => do
    let r ← onCache i (emplace O n.key n.info.value)
    if r.2 = none then pure () else onCache j (write n.addr (mv n.info.value))
    moveElements mv i j rest

/-- `base-cache.hpp` 554-558 `operator=(Range&&)` for a cache as range: `i = j`. When `j` is `i` itself, the range is
empty by the time it is traversed. -/
def assignElements (mv : V → V) (i j : Nat) : M (World K V) Unit := do
  let b ← getCache (K := K) (V := V) j
  if i = j then onCache i (clearAndIncreaseCapacity 0)
  else do
    onCache i (clearAndIncreaseCapacity b.map.length)
    moveElements O mv i j b.map

/-- `i = j` where `j` is a cache of the same type, used in the given category. -/
def assignCache (mv : V → V) (arg : Category) (i j : Nat) : M (World K V) Unit :=
  match Overload.resolve assignCacheOverloads arg with
  | some .copy => copyAssign O i j
  | some .move => moveAssign i j
  | some .forwarded => assignElements O mv i j
  | _ => M.ub

/-- The pairs of a cache as range-based `for` meets them: the order of the hash table (`base-cache.hpp` 697-709: `begin()`
is the unordered iterator). -/
def rangeOfCache (b : Cache K V) : List (K × V) := b.map.map fun n => (n.key, n.info.value)

/-- `Cache c(j)` where `j` is a plain cache, used in the given category. `cache.hpp` 127-132 forwards to `BaseCache`, whose
overloads for ranges are `base-cache.hpp` 421 and 456. -/
def constructCache (arg : Category) (j : Nat) : M (World K V) Unit :=
  match Overload.resolve constructCacheOverloads arg with
  | some .copy => copyCtor O j
  | some .move => moveCtor j
  | some .forwarded =>
    match Overload.resolve insertOverloads arg with
    | some .range => do
      let b ← getCache (K := K) (V := V) j
      create O .basic (.items (rangeOfCache b))
    | _ => M.ub
  | _ => M.ub

/-- `i = j` where the two are caches of different types: of different classes, or timed with different `Duration`s. -/
def assignOther (mv : V → V) (arg : Category) (i j : Nat) : M (World K V) Unit := do
  let a ← getCache (K := K) (V := V) i
  let b ← getCache (K := K) (V := V) j
  match Overload.resolve (if sameBase a.kind b.kind then assignDurationOverloads else assignClassOverloads) arg with
  | some .constRange => onCache i (assignRange O (rangeOfCache b))
  | some .forwarded => assignElements O mv i j
  | _ => M.ub

/-- `base-cache.hpp` 456-463, 436-442 for a cache `j` as range with the elements `l`: the new object has room for the elements,
which are moved into it. If that throws no object comes into existence. -/
def constructMoving (mv : V → V) (kind : Kind) (j : Nat) (l : List (MapNode K V)) : M (World K V) Unit := fun w =>
  match (do create O kind (.sized l.length); moveElements O mv w.caches.length j l : M (World K V) Unit) w with
  | .throw e w' => .throw e ⟨w'.caches.take w.caches.length, w'.g⟩
  | o => o

/-- Construction of a cache of class `kind` from a cache `j` of another class, or of a timed cache from any cache:
`Cache c(j)` (`cache.hpp` 127-132) or `TimedCache c(time_to_live, j)` (`timed-cache.hpp` 143-152). Both forward to
`base-cache.hpp` 421 or 456; the latter moves the values out of `j`. -/
def constructOther (mv : V → V) (kind : Kind) (arg : Category) (j : Nat) : M (World K V) Unit := do
  let b ← getCache (K := K) (V := V) j
  match Overload.resolve insertOverloads arg with
  | some .range => create O kind (.items (rangeOfCache b))
  | some .forwarded => constructMoving O mv kind j b.map
  | _ => M.ub

/-- `base-cache.hpp` 507-519 called on references to the base class: the copy assignment without the time to live. -/
def copyAssignThroughBase (i j : Nat) : M (World K V) Unit := M.noexcept do
  let a ← getCache i
  let b ← getCache j
  if i = j || !sameBase a.kind b.kind then pure () else do
    worldAttempt O .mapNode
    let c ← makeCopy O b
    putCache i (some { c with kind := a.kind })

/-- `base-cache.hpp` 522-526 called on references to the base class: `swap(other)` is the `swap` of `BaseCache` (571), which
`TimedCache` does not override. -/
def moveAssignThroughBase (i j : Nat) : M (World K V) Unit := do
  let a ← getCache i
  let b ← getCache j
  if i = j || !sameBase a.kind b.kind then pure () else do
    let p := swapBase a b
    putCache i (some p.1)
    putCache j (some p.2)

/-- `i = j` on references to the base class. -/
def assignBase (mv : V → V) (arg : Category) (i j : Nat) : M (World K V) Unit :=
  match Overload.resolve assignBaseOverloads arg with
  | some .copy => copyAssignThroughBase O i j
  | some .move => moveAssignThroughBase i j
  | some .forwarded => assignElements O mv i j
  | _ => M.ub

end Impl

end LRU
