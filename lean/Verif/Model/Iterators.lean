import Verif.Model.Cache
/-!
# Iterators

`base-iterator.hpp`, `base-unordered-iterator.hpp`, `base-ordered-iterator.hpp`.

An unordered iterator is a position in `_map` and an ordered iterator a position in `_order`
(`none`: past the end), both with an optional materialised entry (`_entry`, `base-iterator.hpp` 205):
the address of the map node its two references point into.
-/

namespace LRU.Impl

variable {K V : Type} [KeyEqual K] [DecidableEq K] (O : Oracle K V)

/-- `BaseUnorderedIterator` (`base-unordered-iterator.hpp` 64). -/
structure UIt where
  pos : Option Ptr
  entry : Option Ptr := none
  deriving DecidableEq, Repr

/-- `BaseOrderedIterator` (`base-ordered-iterator.hpp` 63). -/
structure OIt where
  pos : Option Ptr
  entry : Option Ptr := none
  deriving DecidableEq, Repr

/-- The element following `p` in a list of addresses: `none` if `p` is not in the list, `some none` if
it is the last one. -/
def after (p : Ptr) : List Ptr → Option (Option Ptr)
  | [] => none
  | a :: r => if a = p then some r.head? else after p r

/-! ### Unordered iterators -/

/-- The addresses of the nodes of `_map`, in enumeration order. -/
def mapAddrs : CM K V (List Ptr) := fun s => .ok (s.c.map.map (·.addr)) s

/-- `base-cache.hpp` 626-640 `unordered_begin()`. -/
def uBegin : CM K V UIt := do
  let as ← mapAddrs
  pure { pos := as.head? }

/-- `base-unordered-iterator.hpp` 148-152 `operator++`. -/
def uNext (it : UIt) : CM K V UIt := do
  let as ← mapAddrs
  match it.pos with
  | none => M.ub
  | some p =>
    match after p as with
    | none => M.ub
    | some q => pure { pos := q }

/-- `base-unordered-iterator.hpp` 124-129 `operator==`. -/
def uEq (a b : UIt) : Bool := a.pos == b.pos

/-- `base-unordered-iterator.hpp` 169-175 `operator*`: materialises the entry on first use. -/
def uDeref (it : UIt) : CM K V UIt := do
  match it.entry with
  | some _ => pure it
  | none => do
    let n ← derefIt it.pos
    pure { it with entry := some n.addr }

/-- `base-unordered-iterator.hpp` 181-188 `entry()`. -/
def uEntry (it : UIt) : CM K V UIt := do
  let it ← uDeref it
  throwIfInvalidU O it.pos
  pure it

/-- `base-unordered-iterator.hpp` 194-196 `key()`: `entry().key()`. -/
def uKey (it : UIt) : CM K V K := do
  let it ← uEntry O it
  let n ← derefIt it.entry
  pure n.key

/-- `base-unordered-iterator.hpp` 202-204 `value()`: `entry().value()`. -/
def uValue (it : UIt) : CM K V V := do
  let it ← uEntry O it
  let n ← derefIt it.entry
  pure n.info.value

/-- `timed-cache.hpp` 295-300 `has_expired(UnorderedConstIterator)`. -/
def hasExpiredU (it : Option Ptr) : CM K V Bool :=
  match it with
  | none => pure false
  | some p => do
    let n ← derefIt (some p)
    hasExpiredInfo O n.info.time

/-- `base-cache.hpp` 731-734 and `timed-cache.hpp` 303-308 `is_valid(UnorderedConstIterator)`. -/
def isValidU (it : Option Ptr) : CM K V Bool := do
  match it with
  | none => pure false
  | some p =>
    match ← getKind with
    | .basic => pure true
    | .timed .. => do
      let e ← hasExpiredU O (some p)
      pure (!e)

/-! ### Ordered iterators -/

/-- `base-cache.hpp` 662-676 `ordered_begin()`. -/
def oBegin : CM K V OIt := do
  let as ← orderAddrs
  pure { pos := as.head? }

/-- `base-ordered-iterator.hpp` 236-240 `operator++`. -/
def oNext (it : OIt) : CM K V OIt := do
  let as ← orderAddrs
  match it.pos with
  | none => M.ub
  | some p =>
    match after p as with
    | none => M.ub
    | some q => pure { pos := q }

/-- `base-ordered-iterator.hpp` 257-261 `operator--`; decrementing the first position is undefined. -/
def oPrev (it : OIt) : CM K V OIt := do
  let as ← orderAddrs
  match it.pos with
  | none =>
    match as.getLast? with
    | none => M.ub
    | some q => pure { pos := some q }
  | some p =>
    match after p as.reverse with
    | some (some q) => pure { pos := some q }
    | _ => M.ub

/-- `base-ordered-iterator.hpp` 151-153 `operator==` of ordered iterators. -/
def oEq (a b : OIt) : Bool := a.pos == b.pos

/-- The key a list position refers to (`*_iterator`). -/
def keyAt (pos : Option Ptr) : CM K V K :=
  match pos with
  | none => M.ub
  | some p => do
    let l ← derefOrder p
    keyOf l

/-- `base-ordered-iterator.hpp` 313-316 `_lookup()`: the node found under the key of the position. -/
def oLookup (pos : Option Ptr) : CM K V Ptr := do
  let k ← keyAt pos
  match ← mapFind k with
  | none => M.ub
  | some n => pure n.addr

/-- `base-ordered-iterator.hpp` 272-274, 304-310 `operator*`: materialises the entry on first use. -/
def oDeref (it : OIt) : CM K V OIt :=
  match it.entry with
  | some _ => pure it
  | none => do
    let p ← oLookup it.pos
    pure { it with entry := some p }

/-- `timed-cache.hpp` 284-290 `has_expired(OrderedConstIterator)`; the argument is a copy, so its entry
is not materialised (`base-iterator.hpp` 88-93). -/
def hasExpiredO (pos : Option Ptr) : CM K V Bool :=
  match pos with
  | none => pure false
  | some p => do
    let q ← oLookup (some p)
    let n ← derefIt (some q)
    match ← mapFind n.key with
    | none => M.ub
    | some m => hasExpiredInfo O m.info.time

/-- `base-cache.hpp` 741-743 and `timed-cache.hpp` 311-315 `is_valid(OrderedConstIterator)`. -/
def isValidO (pos : Option Ptr) : CM K V Bool := do
  match pos with
  | none => pure false
  | some p =>
    match ← getKind with
    | .basic => pure true
    | .timed .. => do
      let e ← hasExpiredO O (some p)
      pure (!e)

/-- `base-cache.hpp` 766-770 and `timed-cache.hpp` 331-336 `throw_if_invalid(OrderedConstIterator)`. -/
def throwIfInvalidO (pos : Option Ptr) : CM K V Unit := do
  match pos with
  | none => M.throw .invalidIterator
  | some p =>
    match ← getKind with
    | .basic => pure ()
    | .timed .. => do
      if ← hasExpiredO O (some p) then M.throw .keyExpired else pure ()

/-- `base-ordered-iterator.hpp` 278-281 `entry()`: the check comes first. -/
def oEntry (it : OIt) : CM K V OIt := do
  throwIfInvalidO O it.pos
  oDeref it

/-- `base-ordered-iterator.hpp` 285-287 `value()`. -/
def oValue (it : OIt) : CM K V V := do
  let it ← oEntry O it
  let n ← derefIt it.entry
  pure n.info.value

/-- `base-ordered-iterator.hpp` 291-295 `key()`. -/
def oKey (it : OIt) : CM K V K := do
  throwIfInvalidO O it.pos
  keyAt it.pos

/-- `base-ordered-iterator.hpp` 107-130, 324-332: construction of an ordered iterator from an unordered
one. (The overload for temporaries also takes over the entry.) A singular `order` iterator would be
copied; that is reported as undefined behaviour. -/
def toOrdered (it : UIt) : CM K V OIt :=
  match it.pos with
  | none => M.throw .invalidIteratorConversion
  | some p => do
    let n ← derefIt (some p)
    match n.info.order with
    | none => M.ub
    | some q => pure { pos := some q }

/-- `base-ordered-iterator.hpp` 171-187: comparison of an ordered with an unordered iterator of the same
cache; `noexcept`. -/
def eqOU (o : OIt) (u : UIt) : CM K V Bool := M.noexcept do
  match u.pos with
  | none => pure (oEq o { pos := none })
  | some p => do
    let o' ← toOrdered { pos := some p }
    pure (oEq o o')

/-- `base-cache.hpp` 1133-1139 `erase(OrderedConstIterator)`. -/
def eraseO (it : OIt) : CM K V Unit :=
  match it.pos with
  | none => M.throw .invalidIterator
  | some p => do
    let k ← oKey O { pos := some p }
    let n ← mapFind k
    eraseIt (n.map (·.addr))

end LRU.Impl
