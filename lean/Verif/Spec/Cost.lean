import Verif.Model.Cost
import Verif.Spec.History
/-!
# What calls may cost

The prices are those of the metered calls (`Model.Cost`).
-/

set_option autoImplicit false

namespace LRU

variable {K V : Type}

/-- How many elements a call was given. -/
def Op.weight : Op K V → Nat
  | .insertRange l | .insertRangeMove l | .assignRange l | .assignRangeMove l => l.length
  | _ => 1

/-- Statistics objects and callbacks that are told about accesses. -/
def audience (o : Obs) : Nat := o.stats.toList.length + o.hitCbs.length + o.missCbs.length + o.accCbs.length

/-- Those told about a hit. -/
def hitAudience (o : Obs) : Nat := o.stats.toList.length + o.hitCbs.length + o.accCbs.length

/-- Those told about a miss. -/
def missAudience (o : Obs) : Nat := o.stats.toList.length + o.missCbs.length + o.accCbs.length

/-- The key is that of the entry accessed last. -/
def Remembers [KeyEqual K] (c : Cache K V) (k : K) : Prop :=
  ∃ x ∈ elements c, c.last = some x.addr ∧ keq k x.key = true

section price

variable [KeyEqual K] [DecidableEq K]

/-- What the call costs in this state. -/
def price (O : Oracle K V) (op : Op K V) (s : St (Cache K V) K V) : Bill := (Cost.step O op s).2

/-- What the calls of a history cost together. -/
def total (O : Oracle K V) : List (Call K V) → Bill
  | [] => 0
  | c :: h => price O c.op c.before + total O h

end price

/-- How many elements the calls of a history were given. -/
def given : List (Call K V) → Nat
  | [] => 0
  | c :: h => c.op.weight + given h

/-- Calls documented as constant, and calls built from a fixed number of their steps. -/
def Op.constant : Op K V → Bool
  | .insertRange _ | .insertRangeMove _ | .assignRange _ | .assignRangeMove _
  | .clear | .shrink _ | .setCapacity _ | .clearExpired => false
  | _ => true

/-- Calls that only remove elements, any number of them. -/
def Op.drops : Op K V → Bool
  | .clear | .shrink _ | .setCapacity _ | .clearExpired => true
  | _ => false

end LRU
