import Verif.Model.Ops
/-!
# Iterator objects

`base-iterator.hpp`, `base-ordered-iterator.hpp`, `base-unordered-iterator.hpp`, `optional.hpp`, the four iterator classes
of `base-cache.hpp` 157-329.

`Model.Iterators` describes what a single operation does with a position. Here programs hold iterator objects: they copy,
move, assign, swap and convert them, and an object that has been dereferenced keeps the entry it found (`_entry`,
`base-iterator.hpp` 205) until it is incremented or assigned to, whatever happens to the cache in the meantime.

All iterators point into one cache (`_cache`); `Model.Held` covers contents that move to another cache object. Const and
non-const iterators are not told apart: every conversion takes its argument by value (`base-cache.hpp` 204-217, 293-320),
which is a copy or a move of the argument followed by a move.
-/

set_option autoImplicit false

namespace LRU

/-- An ordered or unordered iterator object. `pos`: `_iterator`, `none` while singular (default constructed, then `_cache` is
null as well), `some none`: past the end, `some (some p)`: at the list node or map node at `p`. `entry`: `_entry`, the
address of the map node its two references point into. -/
structure It where
  ordered : Bool
  pos : Option (Option Ptr)
  entry : Option Ptr
  deriving DecidableEq, Repr

/-- `base-iterator.hpp` 71 default constructor. -/
def It.singular (ordered : Bool) : It := ⟨ordered, none, none⟩

/-- A cache with its environment, and the iterator objects of the program. -/
structure ISt (K V : Type) where
  s : St (Cache K V) K V
  its : Nat → It

/-- What a program does with iterator objects, and calls on the cache. Objects are named by numbers. -/
inductive IOp (K V : Type) where
  /-- `Iterator i;` -/
  | default (i : Nat) (ordered : Bool)
  /-- `i = cache.ordered_begin()` or `unordered_begin()` -/
  | begin (i : Nat) (ordered : Bool)
  /-- `i = cache.ordered_end()` or `unordered_end()` -/
  | fin (i : Nat) (ordered : Bool)
  /-- `i = cache.find(k)` -/
  | find (i : Nat) (k : K)
  /-- `i = cache.insert(k, v).iterator()` -/
  | insert (i : Nat) (k : K) (v : V)
  /-- `i = j`, `Iterator i(j)`, or conversion of `j` to a const iterator `i` -/
  | copy (i j : Nat)
  /-- `Iterator i(std::move(j))`, or conversion of `std::move(j)` to a const iterator `i` -/
  | moveNew (i j : Nat)
  /-- `i = std::move(j)` -/
  | moveTo (i j : Nat)
  /-- `swap(i, j)` -/
  | swap (i j : Nat)
  /-- `OrderedIterator i(j)` for an unordered iterator `j` -/
  | convert (i j : Nat)
  /-- `OrderedIterator i(std::move(j))` for an unordered iterator `j` -/
  | convertMove (i j : Nat)
  /-- `++i` -/
  | inc (i : Nat)
  /-- `--i` -/
  | dec (i : Nat)
  /-- `i = j++` -/
  | postInc (i j : Nat)
  /-- `i = j--` -/
  | postDec (i j : Nat)
  /-- `*i`, `i->` -/
  | deref (i : Nat)
  /-- `i.entry()` -/
  | entry (i : Nat)
  /-- `i.key()` -/
  | key (i : Nat)
  /-- `i.value()` -/
  | value (i : Nat)
  /-- `i.value() = v` -/
  | setValue (i : Nat) (v : V)
  /-- `i == j` -/
  | eq (i j : Nat)
  /-- any call on the cache -/
  | call (op : Op K V)

namespace Impl

variable {K V : Type} [KeyEqual K] [DecidableEq K] (O : Oracle K V)

/-- Bodies acting on the cache and the iterator objects. -/
abbrev IM (K V α : Type) := M (ISt K V) α

/-- Run a member function of the cache. -/
def onS {α : Type} (m : CM K V α) : IM K V α := fun t =>
  match m t.s with
  | .ok a s => .ok a ⟨s, t.its⟩
  | .throw e s => .throw e ⟨s, t.its⟩
  | .ub => .ub
  | .terminate => .terminate
  | .diverge => .diverge

/-- The iterator object `i`. -/
def getIt (i : Nat) : IM K V It := fun t => .ok (t.its i) t

/-- Assign to the members of the iterator object `i`. -/
def setIt (i : Nat) (it : It) : IM K V Unit := M.modify fun t =>
  { t with its := fun k => if k = i then it else t.its k }

/-- Use `_iterator` (or `_cache`) of an iterator; undefined behaviour while singular. -/
def posOf (it : It) : IM K V (Option Ptr) :=
  match it.pos with
  | none => M.ub
  | some p => pure p

/-- `base-unordered-iterator.hpp` 169-175 `operator*` and `base-ordered-iterator.hpp` 304-316 `_maybe_lookup`: materialise
the entry if there is none. -/
def materialise (i : Nat) : IM K V Unit := do
  let it ← getIt i
  match it.entry with
  | some _ => pure ()
  | none => do
    let p ← posOf it
    let a ← onS (if it.ordered then oLookup p else do
      let n ← derefIt p
      pure n.addr)
    setIt i { it with entry := some a }

/-- `base-ordered-iterator.hpp` 278-281 and `base-unordered-iterator.hpp` 181-188 `entry()`: an ordered iterator is checked
first, an unordered one afterwards. The check gets a copy of the iterator, without the entry. -/
def entryOf (i : Nat) : IM K V Unit := do
  let it ← getIt i
  if it.ordered then do
    let p ← posOf it
    onS (throwIfInvalidO O p)
    materialise i
  else do
    materialise i
    let p ← posOf it
    onS (throwIfInvalidU O p)

/-- The map node the stored entry refers to. -/
def storedNode (i : Nat) : IM K V (MapNode K V) := do
  let it ← getIt i
  onS (derefIt it.entry)

/-- `base-ordered-iterator.hpp` 291-295 and `base-unordered-iterator.hpp` 194-196 `key()`. -/
def keyI (i : Nat) : IM K V K := do
  let it ← getIt i
  if it.ordered then do
    let p ← posOf it
    onS (oKey O { pos := p })
  else do
    entryOf O i
    let n ← storedNode i
    pure n.key

/-- `base-ordered-iterator.hpp` 285-287 and `base-unordered-iterator.hpp` 202-204 `value()`. -/
def valueI (i : Nat) : IM K V V := do
  entryOf O i
  let n ← storedNode i
  pure n.info.value

/-- Assignment to the result of `value()`. -/
def setValueI (i : Nat) (v : V) : IM K V Unit := do
  entryOf O i
  let n ← storedNode i
  onS (write n.addr v)

/-- `base-iterator.hpp` 88-109 copy construction and assignment: the entry is not copied; self-assignment does nothing. -/
def copyI (i j : Nat) : IM K V Unit := do
  let it ← getIt j
  if i = j then pure () else setIt i { it with entry := none }

/-- `base-iterator.hpp` 112 move constructor: the entry is taken over. `heap`: `Optional` is the class of `optional.hpp` 54-201,
whose moved-from objects are empty (79-81); a moved-from `std::optional` keeps its value. -/
def moveNewI (heap : Bool) (i j : Nat) : IM K V Unit := do
  let it ← getIt j
  if i = j then pure () else do
    setIt j { it with entry := if heap then none else it.entry }
    setIt i it

/-- Move assignment. `base-iterator.hpp` 115 is deleted with `std::optional`, because `Entry` has reference members, so that
copy assignment is used; unordered iterators have none (`base-unordered-iterator.hpp` 104-115) and are copied too. -/
def moveToI (heap : Bool) (i j : Nat) : IM K V Unit := do
  let it ← getIt j
  if heap && it.ordered then moveNewI heap i j else copyI i j

/-- `base-iterator.hpp` 161-176 `swap`, for iterators of the same type. (Does not compile otherwise, nor with `std::optional`;
such calls are ignored.) -/
def swapI (heap : Bool) (i j : Nat) : IM K V Unit := do
  let a ← getIt i
  let b ← getIt j
  if heap && a.ordered == b.ordered then do
    setIt i b
    setIt j a
  else pure ()

/-- `base-ordered-iterator.hpp` 107-130 construction of an ordered iterator from an unordered one; the overload for temporaries
takes over the entry. (For an ordered `j` this is copying or moving.) -/
def convertI (heap temporary : Bool) (i j : Nat) : IM K V Unit := do
  let it ← getIt j
  if it.ordered then
    if temporary then moveNewI heap i j else copyI i j
  else do
    let p ← posOf it
    let o ← onS (toOrdered { pos := p })
    if temporary then do
      setIt j { it with entry := if heap then none else it.entry }
      setIt i ⟨true, some o.pos, it.entry⟩
    else setIt i ⟨true, some o.pos, none⟩

/-- `base-ordered-iterator.hpp` 236-240 and `base-unordered-iterator.hpp` 148-152 `operator++`: the entry is dropped. -/
def incI (i : Nat) : IM K V Unit := do
  let it ← getIt i
  let p ← posOf it
  let q ← onS (if it.ordered then do
      let o ← oNext { pos := p }
      pure o.pos
    else do
      let u ← uNext { pos := p }
      pure u.pos)
  setIt i ⟨it.ordered, some q, none⟩

/-- `base-ordered-iterator.hpp` 257-261 `operator--`. (Unordered iterators have none; ignored.) -/
def decI (i : Nat) : IM K V Unit := do
  let it ← getIt i
  if it.ordered then do
    let p ← posOf it
    let q ← onS (do
      let o ← oPrev { pos := p }
      pure o.pos)
    setIt i ⟨it.ordered, some q, none⟩
  else pure ()

/-- `base-ordered-iterator.hpp` 248-252, 266-270 and `base-unordered-iterator.hpp` 160-164 postfix operators: `j` moves on (`f`),
`i` gets a copy of what it was. -/
def postI (f : Nat → IM K V Unit) (i j : Nat) : IM K V Unit := do
  let it ← getIt j
  f j
  setIt i { it with entry := none }

/-- `base-ordered-iterator.hpp` 151-187 and `base-unordered-iterator.hpp` 124-129 `operator==`. -/
def eqI (i j : Nat) : IM K V Bool := do
  let a ← getIt i
  let b ← getIt j
  let p ← posOf a
  let q ← posOf b
  if a.ordered == b.ordered then pure (p == q)
  else if a.ordered then onS (eqOU { pos := p } { pos := q })
  else onS (eqOU { pos := q } { pos := p })

/-- The position in the result of a call. -/
def posIn : Res K V → Option Ptr
  | .pos p => p
  | .inserted _ p => p
  | _ => none

/-- One step of a program. -/
def istep (heap : Bool) : IOp K V → IM K V (Res K V)
  | .default i o => ret (setIt i (It.singular o)) (fun _ => .unit)
  | .begin i true => ret (do let o ← onS oBegin; setIt i ⟨true, some o.pos, none⟩) (fun _ => .unit)
  | .begin i false => ret (do let u ← onS uBegin; setIt i ⟨false, some u.pos, none⟩) (fun _ => .unit)
  | .fin i o => ret (setIt i ⟨o, some none, none⟩) (fun _ => .unit)
  | .find i k => do
    let r ← onS (step O (.find k))
    setIt i ⟨false, some (posIn r), none⟩
    pure r
  | .insert i k v => do
    let r ← onS (step O (.insert k v))
    setIt i ⟨false, some (posIn r), none⟩
    pure r
  | .copy i j => ret (copyI i j) (fun _ => .unit)
  | .moveNew i j => ret (moveNewI heap i j) (fun _ => .unit)
  | .moveTo i j => ret (moveToI heap i j) (fun _ => .unit)
  | .swap i j => ret (swapI heap i j) (fun _ => .unit)
  | .convert i j => ret (convertI heap false i j) (fun _ => .unit)
  | .convertMove i j => ret (convertI heap true i j) (fun _ => .unit)
  | .inc i => ret (incI i) (fun _ => .unit)
  | .dec i => ret (decI i) (fun _ => .unit)
  | .postInc i j => ret (postI incI i j) (fun _ => .unit)
  | .postDec i j => ret (postI decI i j) (fun _ => .unit)
  | .deref i => ret (M.noexcept (materialise i)) (fun _ => .unit)
  | .entry i => ret (entryOf O i) (fun _ => .unit)
  | .key i => ret (keyI O i) .key
  | .value i => ret (valueI O i) .value
  | .setValue i v => ret (setValueI O i v) (fun _ => .unit)
  | .eq i j => ret (eqI i j) .bool
  | .call op => onS (step O op)

end Impl

end LRU
