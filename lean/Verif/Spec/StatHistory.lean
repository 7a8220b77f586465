import Verif.Model.Statistics
/-!
# States of a `Statistics` object
-/

set_option autoImplicit false

namespace LRU

variable {K : Type} [DecidableEq K]

/-- A `Statistics` object after a sequence of public calls and registrations. Calls that throw leave it alone. -/
inductive StatState : Statistics K → Prop
  | new (ks : List K) : StatState (Statistics.ofKeys ks)
  | monitor {st : Statistics K} (k : K) : StatState st → StatState (st.monitor k)
  | unmonitor {st st' : Statistics K} {k : K} : StatState st → st.unmonitor k = .ok st' → StatState st'
  | unmonitorAll {st : Statistics K} : StatState st → StatState st.unmonitorAll
  | resetKey {st st' : Statistics K} {k : K} : StatState st → st.resetKey k = .ok st' → StatState st'
  | hit {st : Statistics K} (k : K) : StatState st → StatState (st.registerHit k)
  | miss {st : Statistics K} (k : K) : StatState st → StatState (st.registerMiss k)

end LRU
