import Verif.Model.IterObjects
import Verif.Spec.History
/-!
# Programs with iterator objects
-/

set_option autoImplicit false

namespace LRU

variable {K V : Type}

/-- The iterator denotes the entry `x` of the cache. -/
def It.Denotes (it : It) (c : Cache K V) (x : MapNode K V) : Prop :=
  ∃ p, it.pos = some (some p) ∧ if it.ordered then At c p x else x ∈ elements c ∧ x.addr = p

/-- The iterator objects a step assigns to, directly or by moving them to another entry. -/
def IOp.targets : IOp K V → List Nat
  | .default i _ | .begin i _ | .fin i _ | .find i _ | .insert i _ _ => [i]
  | .copy i _ | .moveNew i _ | .moveTo i _ | .convert i _ | .convertMove i _ => [i]
  | .swap i j | .postInc i j | .postDec i j => [i, j]
  | .inc i | .dec i => [i]
  | _ => []

/-- A step returned or threw. -/
def IPerforms [KeyEqual K] [DecidableEq K] (O : Oracle K V) (heap : Bool) (op : IOp K V) (t : ISt K V)
    (res : Except Err (Res K V)) (t' : ISt K V) : Prop :=
  match res with
  | .ok r => Impl.istep O heap op t = .ok r t'
  | .error e => Impl.istep O heap op t = .throw e t'

/-- The outcome, without the iterator objects. -/
def Out.onCache {α : Type} : Out (ISt K V) α → Out (St (Cache K V) K V) α
  | .ok a t => .ok a t.s
  | .throw e t => .throw e t.s
  | .ub => .ub
  | .terminate => .terminate
  | .diverge => .diverge

variable [KeyEqual K] [DecidableEq K] [DecidableEq V]

/-- Steps of a program that uses iterators of one cache, newest first. In between, other caches may be used. -/
inductive IRun (O : Oracle K V) (heap : Bool) (t : ISt K V) : List (IOp K V) → ISt K V → Prop
  | nil : IRun O heap t [] t
  | step {l t' t'' op res} : IRun O heap t l t' → IPerforms O heap op t' res t'' → IRun O heap t (op :: l) t''
  | elsewhere {l t' s''} : IRun O heap t l t' → Elsewhere O t'.s s'' → IRun O heap t l ⟨s'', t'.its⟩

/-- A state a program can get into: it starts with any reachable cache and no iterators. -/
def IReachable (O : Oracle K V) (heap : Bool) (t : ISt K V) : Prop :=
  ∃ s l, Reachable O s ∧ IRun O heap ⟨s, fun _ => It.singular true⟩ l t

/-- Run the steps of a program, catching exceptions. -/
def iexec (O : Oracle K V) (heap : Bool) : List (IOp K V) → ISt K V → Option (ISt K V)
  | [], t => some t
  | op :: ops, t =>
    match Impl.istep O heap op t with
    | .ok _ t' => iexec O heap ops t'
    | .throw _ t' => iexec O heap ops t'
    | _ => none

/-- A program that starts with the cache `s`. -/
def idemo (O : Oracle K V) (heap : Bool) (ops : List (IOp K V)) (s : St (Cache K V) K V) : ISt K V :=
  (iexec O heap ops ⟨s, fun _ => It.singular true⟩).getD ⟨s, fun _ => It.singular true⟩

end LRU
