import Verif.Model.Functors
/-!
# What is expected of the function objects of caches
-/

set_option autoImplicit false

namespace LRU

variable {H E : Type}

/-- The caches of a program that starts with none. -/
def FReach [Inhabited H] [Inhabited E] (ps : List (FStep H E)) (w : List (Option (Functors H E))) : Prop :=
  FStep.runAll ps [] = some w

/-- A cache finds what it stores: each element was put into its place with the functions that the table and the entry
accessed last use to look for it. -/
def Functors.Finds (c : Functors H E) : Prop :=
  (∀ x ∈ c.items, x.1 = c.hashFunction ∧ x.2 = c.keyEqual ∧ x.2 = c.lastEq) ∧ c.lastEq = c.keyEqual

/-- The pairs of functions that a program gives to constructors. -/
def FStep.given : List (FStep H E) → List (H × E)
  | [] => []
  | .create h e _ :: ps => (h, e) :: FStep.given ps
  | _ :: ps => FStep.given ps

/-- Move construction. -/
def FStep.IsMoveCtor : FStep H E → Prop
  | .moveCtor _ => True
  | _ => False

end LRU
