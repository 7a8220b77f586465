import Verif.Spec.Reenter
import Verif.Spec.Trace
/-!
# What callbacks that use the cache were told and did
-/

set_option autoImplicit false

namespace LRU

variable {K V : Type} [KeyEqual K] [DecidableEq K] [DecidableEq V]

/-- The call returned or threw; the callbacks do what `F` says. -/
def RPerforms (O : Oracle K V) (F : Event K V → Script K V) (op : Op K V) (s : St (Cache K V) K V)
    (res : Except Err (Res K V)) (s' : St (Cache K V) K V) : Prop :=
  match res with
  | .ok r => RReturns O F op s r s'
  | .error e => RThrows O F op s e s'

/-- Calls and how they ended. -/
abbrev Calls (K V : Type) := List (Op K V × Except Err (Res K V))

/-- The callback ran to its end and these are the calls it made. -/
def Script.Did : Script K V → Calls K V → Prop
  | .done, l => l = []
  | .call op next, l => ∃ r l', l = (op, r) :: l' ∧ (next r).Did l'

/-- These calls led from one state to the other, and nothing else changed the cache. -/
inductive Via (O : Oracle K V) : St (Cache K V) K V → Calls K V → St (Cache K V) K V → Prop
  | nil {s s'} : s'.c = s.c → s.g.next ≤ s'.g.next → s.g.ticks ≤ s'.g.ticks → s'.g.ext = s.g.ext → Via O s [] s'
  | call {s s1 s2 s' op res l} : Via O s [] s1 → Performs O op s1 res s2 → Via O s2 l s' → Via O s ((op, res) :: l) s'

/-- What callbacks were told, in the order in which they were called, and the calls each of them made. -/
abbrev Account (K V : Type) := List (Event K V × Calls K V)

/-- What they were told. -/
def Account.told (t : Account K V) : List (Event K V) := t.map (·.1)

/-- All the calls they made. -/
def Account.calls (t : Account K V) : Calls K V := t.flatMap (·.2)

/-- Every callback did what it does when told that. -/
def Account.True (F : Event K V → Script K V) (t : Account K V) : Prop := ∀ x ∈ t, (F x.1).Did x.2

/-- The access reports that it did not find the key. -/
def Missed (k : K) (op : Op K V) (res : Except Err (Res K V)) : Prop :=
  op = .find k ∧ res = .ok (.pos none) ∨ op = .contains k ∧ res = .ok (.bool false) ∨
    op = .lookup k ∧ res = .error .keyNotFound

/-- The container of the callback that is told. -/
def Event.container : Event K V → CbList
  | .hit .. => .hit
  | .miss .. => .miss
  | .access .. => .access

/-- The callbacks make calls, but no `contains`, `find` or `lookup`. -/
def NoAccesses (F : Event K V → Script K V) : Prop := ∀ e, (F e).Only (fun op => op.isAccess = false)

end LRU
