import Verif.Model.Examples
import Verif.Spec.Textbook
import Verif.Spec.Time
/-!
# What the example programs are supposed to compute
-/

set_option autoImplicit false

namespace LRU

/-- The Fibonacci numbers, beginning with 1, 1. -/
def fibAt : Nat → Nat
  | 0 => 1
  | 1 => 1
  | n + 2 => fibAt (n + 1) + fibAt n

/-- Every value in the cache is what `f` yields for the key, and for all keys that compare equal to it. -/
def AllRight {K V : Type} [KeyEqual K] (f : K → V) (c : Cache K V) : Prop :=
  ∀ x ∈ entries c, ∀ k, keq x.1 k = true → x.2 = f k

/-- The statistics object counted that many misses and hits. -/
def Tallied {K : Type} (st : Statistics K) (misses hits : Nat) : Prop :=
  st.totalMisses = some misses ∧ st.totalHits = hits

/-- An entry inserted at some time is still valid at one reading of the clock and has expired at the next one, both after
`s`. -/
def RunsOut {K V : Type} (O : Oracle K V) (s : St (Cache K V) K V) : Prop :=
  ∃ ttl res i j, s.c.kind = .timed ttl res ∧ i < j ∧ s.g.ticks ≤ j ∧
    (O.clock j - O.clock i).tdiv res ≤ ttl ∧ ttl < (O.clock (j + 1) - O.clock i).tdiv res

end LRU
