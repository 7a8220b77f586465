import Verif.Model.Reenter
import Verif.Spec.Safe
/-!
# Histories in which callbacks use the cache
-/

set_option autoImplicit false

namespace LRU

variable {K V : Type} [KeyEqual K] [DecidableEq K] [DecidableEq V]

/-- The call returns `r`; the callbacks do what `F` says. -/
def RReturns (O : Oracle K V) (F : Event K V → Script K V) (op : Op K V) (s : St (Cache K V) K V) (r : Res K V)
    (s' : St (Cache K V) K V) : Prop :=
  ∃ depth, Impl.stepR O F depth [] op s = .ok r s'

/-- The call throws `e`. -/
def RThrows (O : Oracle K V) (F : Event K V → Script K V) (op : Op K V) (s : St (Cache K V) K V) (e : Err)
    (s' : St (Cache K V) K V) : Prop :=
  ∃ depth, Impl.stepR O F depth [] op s = .throw e s'

/-- The behaviour of the call is undefined. -/
def RUndefined (O : Oracle K V) (F : Event K V → Script K V) (op : Op K V) (s : St (Cache K V) K V) : Prop :=
  ∃ depth, Impl.stepR O F depth [] op s = .ub

/-- The call never ends: the calls nested in it exceed every bound. -/
def RForever (O : Oracle K V) (F : Event K V → Script K V) (op : Op K V) (s : St (Cache K V) K V) : Prop :=
  ∀ depth, Impl.stepR O F depth [] op s = .diverge

/-- A sequence of calls, each of which returned or threw. -/
inductive RHistory (O : Oracle K V) (F : Event K V → Script K V) (s : St (Cache K V) K V) :
    St (Cache K V) K V → Prop
  | nil : RHistory O F s s
  | returns {s' s'' op r} : RHistory O F s s' → RReturns O F op s' r s'' → RHistory O F s s''
  | throws {s' s'' op e} : RHistory O F s s' → RThrows O F op s' e s'' → RHistory O F s s''

/-- States of a cache reached by a program and then by calls whose callbacks use the cache. -/
def RReachable (O : Oracle K V) (F : Event K V → Script K V) (s : St (Cache K V) K V) : Prop :=
  ∃ s0, Reachable O s0 ∧ RHistory O F s0 s

/-- All calls the callback can make satisfy `P`. -/
def Script.Only (P : Op K V → Prop) : Script K V → Prop
  | .done => True
  | .call op next => P op ∧ ∀ r, (next r).Only P

/-- Calls that only ask for facts about the whole cache. -/
def Op.Inspects : Op K V → Prop
  | .size | .capacity | .spaceLeft | .isEmpty | .isFull | .isMonitoring | .stats | .sharedStats | .oBegin => True
  | _ => False

/-- Calls that take no iterators and no references, look no key up, register no callbacks, and are not `front` or
`back`. -/
def Op.Manages : Op K V → Prop
  | .insert .. | .emplace .. | .insertRange .. | .insertRangeMove .. | .assignRange .. | .assignRangeMove .. => True
  | .erase .. | .clear | .shrink .. | .setCapacity .. => True
  | .size | .capacity | .spaceLeft | .isEmpty | .isFull | .allExpired | .clearExpired | .hasExpired .. | .oBegin => True
  | .monitor .. | .monitorNew .. | .stopMonitoring | .isMonitoring | .stats | .sharedStats => True
  | _ => False

/-- Callbacks that change the cache only when a key has been missed: hit callbacks, and access callbacks told of a hit,
only ask for facts about it. -/
def ManagesOnMiss (F : Event K V → Script K V) : Prop :=
  ∀ e : Event K V, match e with
    | .miss .. | .access _ _ false => (F e).Only Op.Manages
    | .hit .. | .access _ _ true => (F e).Only Op.Inspects

/-- A callback that makes one call. -/
def Script.one (op : Op K V) : Script K V := .call op fun _ => .done

/-- On a miss, the callback stores the value `f k` for the missing key `k`. Other callbacks do nothing. -/
def loadOnMiss (f : K → V) : Event K V → Script K V
  | .miss _ k => .one (.insert k (f k))
  | _ => .done

end LRU
