import Verif.Spec.Trace
import Verif.Spec.Observe
/-!
# Worlds that differ only in the order of their hash tables
-/

set_option autoImplicit false
set_option linter.unusedSectionVars false

namespace LRU

variable {K V : Type}

/-- Two environments that agree on the clock and on what throws; hash tables may enumerate their elements in
different orders, and re-order them differently, in each. -/
structure SameButOrder (O O' : Oracle K V) : Prop where
  clock : O'.clock = O.clock
  fails : O'.fails = O.fails
  torn : O'.torn = O.torn

/-- Two caches that are equal but for the order in which the hash table enumerates its nodes. -/
structure Reordered (c d : Cache K V) : Prop where
  map : d.map.Perm c.map
  order : d.order = c.order
  last : d.last = c.last
  capacity : d.capacity = c.capacity
  kind : d.kind = c.kind
  obs : d.obs = c.obs

/-- The shared state is the same: statistics objects, the log of callbacks, allocations, clock readings and fallible
actions so far. -/
structure SameShared (g h : Shared K V) : Prop where
  stats : h.stats = g.stats
  nextStat : h.nextStat = g.nextStat
  log : h.log = g.log
  next : h.next = g.next
  ticks : h.ticks = g.ticks
  steps : h.steps = g.steps

/-- Both objects do not exist, are destroyed, or are caches that differ only in the order of the hash table. -/
def ReorderedAt : Option (Option (Cache K V)) → Option (Option (Cache K V)) → Prop
  | none, none => True
  | some none, some none => True
  | some (some c), some (some d) => Reordered c d
  | _, _ => False

/-- Two worlds that differ only in the order of the hash tables. -/
structure ReorderedWorld (w x : World K V) : Prop where
  caches : ∀ i : Nat, ReorderedAt w.caches[i]? x.caches[i]?
  shared : SameShared w.g x.g

/-- Two runs end in the same way: with the same result, the same exception, both with undefined behaviour, and so on. -/
def SameOutcome {σ α : Type} (R : σ → σ → Prop) : Out σ α → Out σ α → Prop
  | .ok a s, .ok b t => b = a ∧ R s t
  | .throw e s, .throw f t => f = e ∧ R s t
  | .ub, .ub => True
  | .terminate, .terminate => True
  | .diverge, .diverge => True
  | _, _ => False

/-- What a program did and what it got. -/
def WCall.told (c : WCall K V) : WOp K V × Except Err (Res K V) := (c.op, c.res)

end LRU
