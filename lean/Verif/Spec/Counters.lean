import Verif.Model.Counters
/-!
# What the counters of a `Statistics` object are to show
-/

set_option autoImplicit false

namespace LRU

variable {K : Type} [DecidableEq K]

namespace StatCall

/-- A hit. -/
def isHit : StatCall K → Bool
  | .hit _ => true
  | _ => false

/-- A miss. -/
def isMiss : StatCall K → Bool
  | .miss _ => true
  | _ => false

/-- An access. -/
def isAccess (c : StatCall K) : Bool := c.isHit || c.isMiss

/-- The call starts counting for `k` again, or ends it. -/
def Restarts (k : K) : StatCall K → Prop
  | .unmonitor k' => k' = k
  | .resetKey k' => k' = k
  | .unmonitorAll => True
  | _ => False

end StatCall

/-- How often it happened. -/
def hitsIn (l : List (StatCall K)) : Nat := l.countP StatCall.isHit
@[inherit_doc hitsIn] def missesIn (l : List (StatCall K)) : Nat := l.countP StatCall.isMiss
@[inherit_doc hitsIn] def accessesIn (l : List (StatCall K)) : Nat := l.countP StatCall.isAccess

/-- The word that shows a number: its last 64 bits. -/
def shown (n : Nat) : SizeT := BitVec.ofNat 64 n

/-- The object with machine integers that shows the numbers of `st`. -/
def Statistics.words (st : Statistics K) : WordStatistics K :=
  ⟨shown st.total, shown st.hits, st.keys.map fun p => (p.1, ⟨shown p.2.hits, shown p.2.misses⟩)⟩

/-- The call on an object with natural numbers. -/
def Statistics.call (st : Statistics K) : StatCall K → Statistics K
  | .hit k => st.registerHit k
  | .miss k => st.registerMiss k
  | .monitor k => st.monitor k
  | .unmonitor k => match st.unmonitor k with | .ok st' => st' | .error _ => st
  | .unmonitorAll => st.unmonitorAll
  | .resetKey k => match st.resetKey k with | .ok st' => st' | .error _ => st

end LRU
