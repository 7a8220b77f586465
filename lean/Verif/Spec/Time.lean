import Verif.Spec.Observe
/-!
# Time in timed caches
-/

set_option autoImplicit false

namespace LRU

variable {K V : Type}

/-- Time between the time stamp of `x` and the `n`-th reading of the clock, in whole units of a `Duration` of `res`
clock ticks (`std::chrono::duration_cast` truncates). -/
def elapsed (O : Oracle K V) (res : Nat) (x : MapNode K V) (n : Nat) : Int := (O.clock n - x.info.time).tdiv res

/-- The entries are ordered by their time stamps. -/
def SortedByTime (c : Cache K V) : Prop := (elements c).Pairwise (fun x y => x.info.time ≤ y.info.time)

section reuse

variable [KeyEqual K]

/-- `k` is stored, but not in the most recently used entry. -/
def Buried (c : Cache K V) (k : K) : Prop := ∃ x, entryFor c k = some x ∧ (elements c).getLast? ≠ some x

/-- The keys of a range differ from each other. -/
def AllDifferent (l : List (K × V)) : Prop := l.Pairwise (fun p q => keq p.1 q.1 = false)

/-- The call may bring an entry forward: it asks for or inserts a key that is stored, but not in the most recently used entry; or it
inserts a range in which a key is stored already or occurs twice. -/
def Op.BringsForward (c : Cache K V) : Op K V → Prop
  | .contains k | .find k | .lookup k | .insert k _ | .emplace k _ => Buried c k
  | .insertRange l | .insertRangeMove l => (∃ p ∈ l, Stored c p.1) ∨ ¬ AllDifferent l
  | .assignRange l | .assignRangeMove l => ¬ AllDifferent l
  | _ => False

end reuse

end LRU
