import Verif.Model.Monad
/-!
# The replacement of `std::optional`

`optional.hpp` 54-201: `Optional<T>`, used if the standard library has no `<optional>`. An object owns at most one heap cell
(`std::unique_ptr<T>`).

Values of all the types a program uses are of one type `T`; a conversion from `Optional<U>` is given by the function that converts
the values. `left t` is what is left of a value `t` when it has been moved from.
-/

set_option autoImplicit false

namespace LRU.Opt

variable {T : Type}

/-- The objects of type `Optional` of a program (`none`: destroyed) with the cells they own (`none`: null), and the heap. -/
structure OSt (T : Type) where
  objs : List (Option (Option Nat))
  heap : Nat → Option T
  next : Nat
  steps : Nat

/-- What a program does with `Optional`s. Constructors make a new object, whose number is the number of objects so far. -/
inductive OOp (T : Type) where
  /-- `Optional o;` -/
  | create
  /-- `Optional o(i);` -/
  | copyNew (i : Nat)
  /-- `Optional o(std::move(i));` -/
  | moveNew (i : Nat)
  /-- `Optional<T> o(i);` for an `Optional<U>` -/
  | convertNew (f : T → T) (i : Nat)
  /-- `Optional<T> o(std::move(i));` for an `Optional<U>` -/
  | convertMoveNew (f : T → T) (i : Nat)
  /-- the lifetime of `i` ends -/
  | destroy (i : Nat)
  /-- `i = j;` -/
  | assign (i j : Nat)
  /-- `i = std::move(j);` -/
  | moveAssign (i j : Nat)
  /-- `swap(i, j);` -/
  | swap (i j : Nat)
  /-- `i.has_value()`, `if (i)` -/
  | hasValue (i : Nat)
  /-- `*i`, `i->` -/
  | deref (i : Nat)
  /-- `i.value()` -/
  | value (i : Nat)
  /-- `i.value_or(t)` -/
  | valueOr (i : Nat) (t : T)
  /-- `*i = t;` -/
  | store (i : Nat) (t : T)
  /-- `i.reset();` -/
  | reset (i : Nat)
  /-- `i.emplace(t);` -/
  | emplace (i : Nat) (t : T)
  /-- `i.emplace(*j);` -/
  | emplaceFrom (i j : Nat)

/-- Results of such operations. -/
inductive ORes (T : Type) where
  | unit
  | bool (b : Bool)
  | value (t : T)
  deriving DecidableEq

/-- Bodies acting on the objects. `fails` says which constructions of a value in a new heap cell throw (for want of memory, or in a
constructor of `T`). -/
abbrev OM (T α : Type) := M (OSt T) α

variable (fails : Nat → Bool) (left : T → T)

/-- `_value` of the object `i`. -/
def ptrOf (i : Nat) : OM T (Option Nat) := fun s =>
  match s.objs[i]? with
  | some (some p) => .ok p s
  | _ => .ub

/-- Overwrite the pointer in the object `i` (`none`: the object is gone). -/
def putPtr (i : Nat) (p : Option (Option Nat)) : OM T Unit := M.modify fun s => { s with objs := s.objs.set i p }

/-- A new object. -/
def push (p : Option Nat) : OM T Unit := M.modify fun s => { s with objs := s.objs ++ [some p] }

/-- `std::make_unique<T>(t)`. -/
def makeUnique (t : T) : OM T Nat := fun s =>
  if fails s.steps then .throw .badAlloc { s with steps := s.steps + 1 }
  else .ok s.next { s with
    heap := fun a => if a = s.next then some t else s.heap a
    next := s.next + 1
    steps := s.steps + 1 }

/-- `delete`; of an address that is not that of a live object it is undefined behaviour. -/
def free : Option Nat → OM T Unit
  | none => pure ()
  | some p => fun s =>
    match s.heap p with
    | none => .ub
    | some _ => .ok () { s with heap := fun a => if a = p then none else s.heap a }

/-- `*_value`. -/
def load : Option Nat → OM T T
  | none => M.ub
  | some p => fun s =>
    match s.heap p with
    | none => .ub
    | some t => .ok t s

/-- Assign to `*_value`. -/
def storeAt : Option Nat → T → OM T Unit
  | none, _ => M.ub
  | some p, t => fun s =>
    match s.heap p with
    | none => .ub
    | some _ => .ok () { s with heap := fun a => if a = p then some t else s.heap a }

/-- `if (other) emplace(f(*other))` (`optional.hpp` 64, 73) of an object under construction: the pointer it gets. -/
def copyOf (f : T → T) (p : Option Nat) : OM T (Option Nat) :=
  if p.isSome then do
    let t ← load p
    let q ← makeUnique fails (f t)
    pure (some q)
  else pure none

/-- `optional.hpp` 63-65 copy constructor (`f` the identity) and 72-74 generalized copy constructor. If it throws there is no object. -/
def copyNew (f : T → T) (i : Nat) : OM T Unit := do
  let p ← ptrOf i
  let q ← copyOf fails f p
  push q

/-- `optional.hpp` 79-81 move constructor: swaps with a null pointer. -/
def moveNew (i : Nat) : OM T Unit := do
  let p ← ptrOf i
  putPtr i (some none)
  push p

/-- The body of the generalized move constructor (`optional.hpp` 89-91). The other object keeps its cell. -/
def convertMove (f : T → T) (p : Option Nat) : OM T (Option Nat) :=
  if p.isSome then do
    let t ← load p
    let q ← makeUnique fails (f t)
    storeAt p (left t)
    pure (some q)
  else pure none

/-- `optional.hpp` 88-92 generalized move constructor, `noexcept`. -/
def convertMoveNew (f : T → T) (i : Nat) : OM T Unit := M.noexcept do
  let p ← ptrOf i
  let q ← convertMove fails left f p
  push q

/-- The destructor: that of the `unique_ptr`. -/
def destroy (i : Nat) : OM T Unit := do
  let p ← ptrOf i
  putPtr i none
  free p

/-- `optional.hpp` 98-101 `operator=(Optional other)`: swaps with the parameter, which holds `q`, and is destroyed afterwards. -/
def assignParam (i : Nat) (q : Option Nat) : OM T Unit := do
  let p ← ptrOf i
  putPtr i (some q)
  free p

/-- `i = j`: the parameter is a copy, made by the caller. -/
def assign (i j : Nat) : OM T Unit := do
  let _ ← ptrOf (T := T) i
  let p ← ptrOf j
  let q ← copyOf fails id p
  M.noexcept (assignParam i q)

/-- `i = std::move(j)`: the parameter is move-constructed by the caller. -/
def moveAssign (i j : Nat) : OM T Unit := do
  let _ ← ptrOf (T := T) i
  let p ← ptrOf j
  putPtr j (some none)
  M.noexcept (assignParam i p)

/-- `optional.hpp` 106-116 `swap`. -/
def swap (i j : Nat) : OM T Unit := do
  let p ← ptrOf i
  let q ← ptrOf j
  putPtr i (some q)
  putPtr j (some p)

/-- `optional.hpp` 119-126 `has_value()`, `operator bool`. -/
def hasValue (i : Nat) : OM T Bool := M.noexcept do
  let p ← ptrOf i
  pure p.isSome

/-- `optional.hpp` 130-150 `operator*`, `operator->`. -/
def deref (i : Nat) : OM T T := do
  let p ← ptrOf i
  load p

/-- `optional.hpp` 154-172 `value()`. (The exception is a `std::runtime_error`, here `user`.) -/
def value (i : Nat) : OM T T := do
  let b ← hasValue i
  if !b then M.throw .user else deref i

/-- `optional.hpp` 177-180 `value_or(default_value)`. -/
def valueOr (i : Nat) (t : T) : OM T T := do
  let b ← hasValue i
  if b then deref i else pure t

/-- Assignment through `operator*`. -/
def store (i : Nat) (t : T) : OM T Unit := do
  let p ← ptrOf i
  storeAt p t

/-- `optional.hpp` 183-185 `reset()`. -/
def reset (i : Nat) : OM T Unit := M.noexcept do
  let p ← ptrOf i
  putPtr i (some none)
  free p

/-- `optional.hpp` 190-193 `emplace(args...)`: the new value is constructed before the old one is destroyed. -/
def emplace (i : Nat) (t : T) : OM T Unit := do
  let p ← ptrOf i
  let q ← makeUnique fails t
  putPtr i (some (some q))
  free p

/-- `i.emplace(*j)`. -/
def emplaceFrom (i j : Nat) : OM T Unit := do
  let t ← deref j
  emplace fails i t

/-- Run a body and wrap its result. -/
def give {α : Type} (m : OM T α) (f : α → ORes T) : OM T (ORes T) := do
  let a ← m
  pure (f a)

/-- One step of a program. -/
def ostep : OOp T → OM T (ORes T)
  | .create => give (push none) (fun _ => .unit)
  | .copyNew i => give (copyNew fails id i) (fun _ => .unit)
  | .moveNew i => give (moveNew i) (fun _ => .unit)
  | .convertNew f i => give (copyNew fails f i) (fun _ => .unit)
  | .convertMoveNew f i => give (convertMoveNew fails left f i) (fun _ => .unit)
  | .destroy i => give (destroy i) (fun _ => .unit)
  | .assign i j => give (assign fails i j) (fun _ => .unit)
  | .moveAssign i j => give (moveAssign i j) (fun _ => .unit)
  | .swap i j => give (swap i j) (fun _ => .unit)
  | .hasValue i => give (hasValue i) .bool
  | .deref i => give (deref i) .value
  | .value i => give (value i) .value
  | .valueOr i t => give (valueOr i t) .value
  | .store i t => give (store i t) (fun _ => .unit)
  | .reset i => give (reset i) (fun _ => .unit)
  | .emplace i t => give (emplace fails i t) (fun _ => .unit)
  | .emplaceFrom i j => give (emplaceFrom fails i j) (fun _ => .unit)

/-- No objects. -/
def initial : OSt T := { objs := [], heap := fun _ => none, next := 0, steps := 0 }

/-- `optional.hpp` 70-71, 86-87: the generalized constructors take part in overload resolution if `std::is_convertible<T, U>`. -/
def participates {Ty : Type} (convertible : Ty → Ty → Bool) (T U : Ty) : Bool := convertible T U

end LRU.Opt
