/-!
# Outcomes of C++ calls

Every modelled function is a total function from a state to an `Out`.
-/

namespace LRU

/-- Kinds of exceptions. `include/lru/error.hpp` 32-92 defines the first seven; `badAlloc` stands for
any exception raised by an allocation or by a copy/construction/assignment of a user type; `user` for an
exception raised by a user callback; `hash` (`Model.HashFault` only) for one raised by the user's hash function or
comparison of keys. -/
inductive Err
  | keyNotFound | keyExpired | emptyCache | invalidIteratorConversion | invalidIterator
  | unmonitoredKey | notMonitoring | badAlloc | user | hash
  deriving DecidableEq, Repr

/-- Outcome of running a C++ function in state `σ`: normal return, exception (with the state it leaves
behind), undefined behaviour, `std::terminate` (exception leaving a `noexcept` function), or a loop
that exhausted the iteration budget the model gives it. -/
inductive Out (σ α : Type) where
  | ok (a : α) (s : σ)
  | throw (e : Err) (s : σ)
  | ub
  | terminate
  | diverge

/-- A C++ function body acting on state `σ`. -/
def M (σ α : Type) : Type := σ → Out σ α

namespace M

variable {σ α β : Type}

/-- Sequencing: exceptions and fatal outcomes cut the rest of the body short. -/
def bind (m : M σ α) (f : α → M σ β) : M σ β := fun s =>
  match m s with
  | .ok a s' => f a s'
  | .throw e s' => .throw e s'
  | .ub => .ub
  | .terminate => .terminate
  | .diverge => .diverge

/-- A body that just returns. -/
def pure (a : α) : M σ α := fun s => .ok a s

instance : Monad (M σ) where
  pure := M.pure
  bind := M.bind

/-- `throw e`. -/
def throw (e : Err) : M σ α := fun s => .throw e s

/-- Undefined behaviour. -/
def ub : M σ α := fun _ => .ub

/-- The iteration budget of a loop is used up. -/
def diverge : M σ α := fun _ => .diverge

/-- Read the state. -/
def get : M σ σ := fun s => .ok s s

/-- Change the state. -/
def modify (f : σ → σ) : M σ Unit := fun s => .ok () (f s)

/-- A `noexcept` function: an exception leaving it calls `std::terminate`. -/
def noexcept (m : M σ α) : M σ α := fun s =>
  match m s with
  | .throw _ _ => .terminate
  | o => o

end M

end LRU
