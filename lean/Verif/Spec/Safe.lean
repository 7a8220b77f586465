import Verif.Spec.Positions
/-!
# Calls a program may make

The preconditions of the calls: iterators and references passed to a call are valid, dereferenced iterators are not
past the end, and the capacity of the cache is set when the call reads it (after a move it is not).
-/

set_option autoImplicit false

namespace LRU

variable {K V : Type}

/-- The preconditions of a call. -/
def Safe (c : Cache K V) : Op K V → Prop
  | .insert .. | .emplace .. | .capacity | .spaceLeft | .isFull => c.capacity ≠ none
  | .assignRange .. | .assignRangeMove .. => c.capacity ≠ none
  | .insertRange l | .insertRangeMove l => l = [] ∨ c.capacity ≠ none
  | .eraseU u | .hasExpiredU u | .toOrdered u | .eqOU _ u => ValidU c u
  | .isValidU u => c.kind = .basic ∨ ValidU c u
  | .uKey u | .uValue u => u ≠ none ∧ ValidU c u
  | .eraseO o | .hasExpiredO o | .oKey o | .oValue o => ValidO c o
  | .isValidO o => c.kind = .basic ∨ ValidO c o
  | .oNext o => o ≠ none ∧ ValidO c o
  | .oPrev o => o ≠ position c 0 ∧ ValidO c o
  | .write p _ | .read p => ValidU c (some p)
  | _ => True

/-- The call is one of the two `noexcept` calls that throw, and the cache is empty: the program is terminated. -/
def Terminates (c : Cache K V) (op : Op K V) : Prop := (op = .front ∨ op = .back) ∧ elements c = []

/-- The preconditions of a step of a program with several caches: the caches exist, and a call on a cache respects
its preconditions. -/
def WSafe (w : World K V) : WOp K V → Prop
  | .create .. | .newStats .. | .stat .. => True
  | .destroy i | .moveCtor i | .copyCtor i => ∃ c, w.caches[i]? = some (some c)
  | .op i o => ∃ c, w.caches[i]? = some (some c) ∧ Safe c o ∧ ¬ Terminates c o
  | .swap i j | .swapBase i j | .moveAssign i j | .copyAssign i j | .eq i j =>
    ∃ c d, w.caches[i]? = some (some c) ∧ w.caches[j]? = some (some d)

/-- A call completes: it returns or throws. -/
def Completes {σ α : Type} (o : Out σ α) : Prop := (∃ a s, o = .ok a s) ∨ ∃ e s, o = .throw e s

end LRU
