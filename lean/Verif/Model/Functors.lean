/-!
# Hash functions and comparators of caches

`HashFunction` and `KeyEqual` are types; the objects given to the constructors may have a state (function pointers,
`std::function`, a table of aliases). A cache keeps one hash function and two comparators: the hash table has its own copies
(`base-cache.hpp` 351), and so has `_last_accessed` (`last-accessed.hpp` 70-75, 249). The other models take one comparator
for all caches. Here is where these objects go when caches are constructed, copied, moved, swapped and assigned.

What a cache stores is represented by the functions each element was put into the table with.
-/

set_option autoImplicit false

namespace LRU

/-- The function objects of a cache, and its elements: `items` are the hash function and the comparator with which each
element was put into its place in the table.
* `hash`, `eq`: of `_map`;
* `lastEq`: `_last_accessed._key_equal`. -/
structure Functors (H E : Type) where
  hash : H
  eq : E
  lastEq : E
  items : List (H × E)
  deriving DecidableEq

/-- Steps of a program, as far as function objects are concerned. -/
inductive FStep (H E : Type) where
  /-- a constructor that takes function objects (by default default-constructed ones) and inserts `n` elements -/
  | create (hash : H) (eq : E) (n : Nat)
  | destroy (i : Nat)
  /-- any member call that inserts `add` elements and removes all but `keep` of the others, assignment of ranges and of
  caches of other types included (`base-cache.hpp` 541-566) -/
  | use (i : Nat) (keep add : Nat)
  | swap (i j : Nat)
  | moveCtor (i : Nat)
  | moveAssign (i j : Nat)
  | copyCtor (i : Nat)
  | copyAssign (i j : Nat)

namespace Functors

variable {H E : Type}

/-- `base-cache.hpp` 348-352 and the constructors that delegate to it. -/
def create (hash : H) (eq : E) (n : Nat) : Functors H E := ⟨hash, eq, eq, List.replicate n (hash, eq)⟩

/-- A constructor that names none of the members (`base-cache.hpp` 501-504): default-constructed function objects. -/
def blank [Inhabited H] [Inhabited E] : Functors H E := ⟨default, default, default, []⟩

/-- Insertions and erasures. -/
def use (c : Functors H E) (keep add : Nat) : Functors H E :=
  { c with items := c.items.take keep ++ List.replicate add (c.hash, c.eq) }

/-- `base-cache.hpp` 571-578 `swap`: `std::unordered_map::swap` exchanges the function objects as well, and so does
`std::swap` for `_last_accessed`. First component: the new value of `a`. -/
def swap (a b : Functors H E) : Functors H E × Functors H E :=
  ({ a with hash := b.hash, eq := b.eq, items := b.items, lastEq := b.lastEq },
   { b with hash := a.hash, eq := a.eq, items := a.items, lastEq := a.lastEq })

/-- `base-cache.hpp` 490-498 and 507-519: copying the map copies its function objects. -/
def copy (b : Functors H E) : Functors H E :=
  { hash := b.hash, eq := b.eq, items := b.items, lastEq := b.lastEq }

/-- `base-cache.hpp` 1220-1222 `hash_function()`. -/
def hashFunction (c : Functors H E) : H := c.hash

/-- `base-cache.hpp` 1225-1227 `key_equal()`. -/
def keyEqual (c : Functors H E) : E := c.eq

end Functors

variable {H E : Type} [Inhabited H] [Inhabited E]

/-- A step on the live caches (`none`: destroyed); `none` as the result: an object that does not exist was used. -/
def FStep.run (w : List (Option (Functors H E))) : FStep H E → Option (List (Option (Functors H E)))
  | .create hash eq n => some (w ++ [some (.create hash eq n)])
  | .destroy i =>
    match w[i]? with
    | some (some _) => some (w.set i none)
    | _ => none
  | .use i keep add =>
    match w[i]? with
    | some (some c) => some (w.set i (some (c.use keep add)))
    | _ => none
  | .swap i j =>
    match w[i]?, w[j]? with
    | some (some a), some (some b) =>
      if i = j then some w else some ((w.set i (some (a.swap b).1)).set j (some (a.swap b).2))
    | _, _ => none
  | .moveCtor i =>
    match w[i]? with
    | some (some b) => some (w.set i (some (Functors.blank.swap b).2) ++ [some (Functors.blank.swap b).1])
    | _ => none
  | .moveAssign i j =>
    match w[i]?, w[j]? with
    | some (some a), some (some b) =>
      if i = j then some w else some ((w.set i (some (a.swap b).1)).set j (some (a.swap b).2))
    | _, _ => none
  | .copyCtor i =>
    match w[i]? with
    | some (some b) => some (w ++ [some b.copy])
    | _ => none
  | .copyAssign i j =>
    match w[i]?, w[j]? with
    | some (some _), some (some b) => if i = j then some w else some (w.set i (some b.copy))
    | _, _ => none

/-- A program. -/
def FStep.runAll : List (FStep H E) → List (Option (Functors H E)) → Option (List (Option (Functors H E)))
  | [], w => some w
  | p :: ps, w =>
    match p.run w with
    | none => none
    | some w' => FStep.runAll ps w'

end LRU
