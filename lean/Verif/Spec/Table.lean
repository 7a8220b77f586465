import Verif.Model.Table
import Verif.Spec.History
/-!
# Programs on a cache with a hash table that grows
-/

set_option autoImplicit false

namespace LRU

variable {K V : Type} [KeyEqual K] [DecidableEq K] [DecidableEq V]

/-- The call returns or throws `res`; its unordered iterator, if it has one, is from epoch `e`. -/
def TPerforms (O : Oracle K V) (G : Growth) (op : Op K V) (e : Nat) (t : TSt K V) (res : Except Err (Res K V))
    (t' : TSt K V) : Prop :=
  match res with
  | .ok r => Impl.tstep O G op e t = .ok r t'
  | .error x => Impl.tstep O G op e t = .throw x t'

/-- The call empties the table. -/
def Op.resets : Op K V → Bool
  | .clear => true
  | .shrink n => n == 0
  | .assignRange _ => true
  | .assignRangeMove _ => true
  | _ => false

/-- Calls on one cache, with anything happening elsewhere in between. The list holds the calls and the states before them. -/
inductive TRun (O : Oracle K V) (G : Growth) (t : TSt K V) : List (Op K V × TSt K V) → TSt K V → Prop
  | nil : TRun O G t [] t
  | call {h t' t'' op e res} : TRun O G t h t' → TPerforms O G op e t' res t'' → TRun O G t ((op, t') :: h) t''
  | elsewhere {h t' s} : TRun O G t h t' → Elsewhere O t'.s s → TRun O G t h ⟨s, t'.table⟩

/-- The outcome of a call, without the table. -/
def Out.bare {α : Type} : Out (TSt K V) α → Out (St (Cache K V) K V) α
  | .ok a t => .ok a t.s
  | .throw e t => .throw e t.s
  | .ub => .ub
  | .terminate => .terminate
  | .diverge => .diverge

/-- The capacity is not above `N`. -/
def CapWithin (N : Nat) (c : Cache K V) : Prop := ∀ n, c.capacity = some n → n ≤ N

end LRU
