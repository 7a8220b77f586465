import Verif.Proofs.Outcomes
import Verif.Spec.Record
/-!
# The registration functions do what `Recorded` says
-/

set_option linter.unusedSectionVars false
set_option autoImplicit false

namespace LRU

variable {K V : Type} [DecidableEq K]

theorem find_updateKey_self (st : Statistics K) (k : K) (f : KeyStats → KeyStats) :
    (st.updateKey k f).find k = (st.find k).map f := by
  unfold Statistics.find Statistics.updateKey
  simp only
  induction st.keys with
  | nil => rfl
  | cons p r ih =>
    rw [List.map_cons, List.find?_cons, List.find?_cons]
    by_cases hp : p.1 = k
    · simp [hp]
    · simp only [hp, if_false, decide_false]
      exact ih

theorem find_updateKey_other (st : Statistics K) {k j : K} (hj : j ≠ k) (f : KeyStats → KeyStats) :
    (st.updateKey k f).find j = st.find j := by
  unfold Statistics.find Statistics.updateKey
  simp only
  induction st.keys with
  | nil => rfl
  | cons p r ih =>
    rw [List.map_cons, List.find?_cons, List.find?_cons]
    by_cases hp : p.1 = k
    · have : ¬ k = j := fun h => hj h.symm
      simp only [hp, if_true, this, decide_false]
      exact ih
    · by_cases hpj : p.1 = j
      · simp [hp, hpj, hj]
      · simp only [hp, if_false, hpj, decide_false]
        exact ih

theorem statsFor_eq (st : Statistics K) (k : K) :
    st.statsFor k = match st.find k with | none => .error .unmonitoredKey | some x => .ok x := rfl

theorem counted_hit (st : Statistics K) (k : K) : Counted k true st (st.registerHit k) where
  total := rfl
  hits := rfl
  own := by
    unfold Statistics.registerHit
    rw [statsFor_eq, statsFor_eq, find_updateKey_self]
    have : ({ st with total := st.total + 1, hits := st.hits + 1 } : Statistics K).find k = st.find k := rfl
    simp only [this]
    cases st.find k <;> rfl
  other j hj := by
    unfold Statistics.registerHit
    rw [statsFor_eq, statsFor_eq, find_updateKey_other _ hj]
    rfl

theorem counted_miss (st : Statistics K) (k : K) : Counted k false st (st.registerMiss k) where
  total := rfl
  hits := rfl
  own := by
    unfold Statistics.registerMiss
    rw [statsFor_eq, statsFor_eq, find_updateKey_self]
    have : ({ st with total := st.total + 1 } : Statistics K).find k = st.find k := rfl
    simp only [this]
    cases st.find k <;> rfl
  other j hj := by
    unfold Statistics.registerMiss
    rw [statsFor_eq, statsFor_eq, find_updateKey_other _ hj]
    rfl

/-- A registered hit, whatever the counters of the shared state. -/
theorem hit_recorded {s s' : St (Cache K V) K V} {k : K} {v : V} (hl : s'.g.log = s.g.log ++ hitEvents s.c.obs k v)
    (hs : s'.g.stats = hitStats s.c.obs k s.g) : HitRecorded s s' k v where
  log := hl
  counted i hi := by rw [hs]; simp only [hitStats, hi, if_pos]; exact counted_hit _ _
  others i hi := by rw [hs]; simp only [hitStats]; rw [if_neg hi]

theorem miss_recorded {s s' : St (Cache K V) K V} {k : K} (hl : s'.g.log = s.g.log ++ missEvents s.c.obs k)
    (hs : s'.g.stats = missStats s.c.obs k s.g) : MissRecorded s s' k where
  log := hl
  counted i hi := by rw [hs]; simp only [missStats, hi, if_pos]; exact counted_miss _ _
  others i hi := by rw [hs]; simp only [missStats]; rw [if_neg hi]

variable [KeyEqual K]

/-- Recorded hits and misses, seen on the list machine. -/
theorem Rel.hit {s s' : St (Cache K V) K V} {t t' : St (MCache K V) K V} (hr : Rel s t) (hr' : Rel s' t') {k : K} {v : V}
    (hl : t'.g.log = t.g.log ++ hitEvents t.c.obs k v) (hs : t'.g.stats = hitStats t.c.obs k t.g) :
    HitRecorded s s' k v :=
  hit_recorded (by rw [hr'.g, hr.g, hr.rep.obs, hl]) (by rw [hr'.g, hr.g, hr.rep.obs, hs])

theorem Rel.miss {s s' : St (Cache K V) K V} {t t' : St (MCache K V) K V} (hr : Rel s t) (hr' : Rel s' t') {k : K}
    (hl : t'.g.log = t.g.log ++ missEvents t.c.obs k) (hs : t'.g.stats = missStats t.c.obs k t.g) :
    MissRecorded s s' k :=
  miss_recorded (by rw [hr'.g, hr.g, hr.rep.obs, hl]) (by rw [hr'.g, hr.g, hr.rep.obs, hs])

theorem Rel.silent {s s' : St (Cache K V) K V} {t t' : St (MCache K V) K V} (hr : Rel s t) (hr' : Rel s' t')
    (hl : t'.g.log = t.g.log) (hs : t'.g.stats = t.g.stats) : NothingRecorded s s' :=
  ⟨by rw [hr'.g, hr.g, hl], by rw [hr'.g, hr.g, hs]⟩

end LRU
