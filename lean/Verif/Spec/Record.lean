import Verif.Spec.Observe
/-!
# What an access leaves behind in statistics and callbacks

Stated with the getters of `Statistics` (`total_accesses`, `total_hits`, `stats_for`) and the log of callback
invocations.
-/

set_option autoImplicit false

namespace LRU

variable {K V : Type}

/-- One more hit or miss in the record of a key. -/
def KeyStats.plus (x : KeyStats) (hit : Bool) : KeyStats :=
  if hit then ⟨x.hits + 1, x.misses⟩ else ⟨x.hits, x.misses + 1⟩

/-- `st'` counts exactly one access more than `st`, to key `k`. -/
structure Counted [DecidableEq K] (k : K) (hit : Bool) (st st' : Statistics K) : Prop where
  total : st'.totalAccesses = st.totalAccesses + 1
  hits : st'.totalHits = st.totalHits + (if hit then 1 else 0)
  own : st'.statsFor k = (st.statsFor k).map (·.plus hit)
  other : ∀ j, j ≠ k → st'.statsFor j = st.statsFor j

/-- Between `s` and `s'` exactly one access to `k` was counted, by the statistics object of the cache if it has
one, and exactly the callbacks `evs` were called, in this order. -/
structure Recorded [DecidableEq K] (s s' : St (Cache K V) K V) (k : K) (hit : Bool) (evs : List (Event K V)) : Prop where
  log : s'.g.log = s.g.log ++ evs
  counted : ∀ i, s.c.obs.stats = some i → Counted k hit (s.g.stats i) (s'.g.stats i)
  others : ∀ i, s.c.obs.stats ≠ some i → s'.g.stats i = s.g.stats i

/-- A hit was registered: hit callbacks with key and value, then access callbacks with `true`. -/
def HitRecorded [DecidableEq K] (s s' : St (Cache K V) K V) (k : K) (v : V) : Prop :=
  Recorded s s' k true
    (s.c.obs.hitCbs.map (fun cb => .hit cb k v) ++ s.c.obs.accCbs.map (fun cb => .access cb k true))

/-- A miss was registered: miss callbacks with the key, then access callbacks with `false`. -/
def MissRecorded [DecidableEq K] (s s' : St (Cache K V) K V) (k : K) : Prop :=
  Recorded s s' k false
    (s.c.obs.missCbs.map (fun cb => .miss cb k) ++ s.c.obs.accCbs.map (fun cb => .access cb k false))

/-- No statistics object changed and no callback was called. -/
structure NothingRecorded (s s' : St (Cache K V) K V) : Prop where
  log : s'.g.log = s.g.log
  stats : s'.g.stats = s.g.stats

end LRU
