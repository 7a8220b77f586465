import Verif.Proofs.Minds
/-!
# Invariant of `Statistics` objects
-/

set_option linter.unusedSectionVars false
set_option autoImplicit false

namespace LRU

variable {K : Type} [DecidableEq K]

/-- Totals dominate the sums over monitored keys. -/
structure StatOk (st : Statistics K) : Prop where
  nodup : (st.keys.map (·.1)).Nodup
  hits : (st.keys.map (·.2.hits)).sum ≤ st.hits
  misses : (st.keys.map (·.2.misses)).sum + st.hits ≤ st.total

theorem updateKey_fst (l : List (K × KeyStats)) (k : K) (f : KeyStats → KeyStats) :
    (l.map (fun p => if p.1 = k then (p.1, f p.2) else p)).map (·.1) = l.map (·.1) := by
  rw [List.map_map]
  apply List.map_congr_left
  intro p _
  simp only [Function.comp]
  split <;> rfl

/-- Changing one record changes a sum by at most the change of the record. -/
theorem sum_update {l : List (K × KeyStats)} (hn : (l.map (·.1)).Nodup) (k : K) (f : KeyStats → KeyStats) (d : Nat)
    (g : KeyStats → Nat) (hf : ∀ x, g (f x) ≤ g x + d) :
    ((l.map (fun p => if p.1 = k then (p.1, f p.2) else p)).map (fun p => g p.2)).sum ≤ (l.map (fun p => g p.2)).sum + d := by
  induction l with
  | nil => simp
  | cons p r ih =>
    simp only [List.map_cons, List.nodup_cons] at hn
    simp only [List.map_cons, List.sum_cons]
    by_cases hp : p.1 = k
    · have hr : r.map (fun p => if p.1 = k then (p.1, f p.2) else p) = r := by
        conv => rhs; rw [← List.map_id r]
        apply List.map_congr_left
        intro q hq
        rw [if_neg]
        · rfl
        · intro h
          exact hn.1 (List.mem_map.2 ⟨q, hq, by rw [h, hp]⟩)
      rw [hr, if_pos hp]
      have := hf p.2
      simp only
      omega
    · rw [if_neg hp]
      have := ih hn.2
      omega

theorem sum_filter_le {α : Type} (l : List α) (p : α → Bool) (g : α → Nat) :
    ((l.filter p).map g).sum ≤ (l.map g).sum := by
  induction l with
  | nil => simp
  | cons a l ih =>
    rw [List.filter_cons]
    split <;> simp only [List.map_cons, List.sum_cons] <;> omega

theorem monitor_ok {st : Statistics K} (h : StatOk st) (k : K) : StatOk (st.monitor k) := by
  unfold Statistics.monitor
  cases hf : st.find k with
  | some _ => exact h
  | none =>
    refine ⟨?_, ?_, ?_⟩
    · simp only [List.map_append, List.map_cons, List.map_nil]
      rw [List.nodup_append]
      refine ⟨h.nodup, by simp, ?_⟩
      intro a ha b hb
      simp only [List.mem_singleton] at hb
      subst hb
      rintro rfl
      obtain ⟨p, hp, rfl⟩ := List.mem_map.1 ha
      unfold Statistics.find at hf
      have := Option.map_eq_none_iff.1 hf
      have := List.find?_eq_none.1 this p hp
      simp at this
    · simpa using h.hits
    · simpa using h.misses

theorem StatState.ok {st : Statistics K} (h : StatState st) : StatOk st := by
  induction h with
  | new ks =>
    unfold Statistics.ofKeys
    have : ∀ st : Statistics K, StatOk st → StatOk (ks.foldl Statistics.monitor st) := by
      induction ks with
      | nil => exact fun _ h => h
      | cons k ks ih => exact fun st h => ih _ (monitor_ok h k)
    exact this _ ⟨by simp, by simp, by simp⟩
  | monitor k _ ih => exact monitor_ok ih k
  | @unmonitor st st' k _ h ih =>
    unfold Statistics.unmonitor at h
    split at h
    · cases h
    · injection h with h
      subst h
      refine ⟨?_, ?_, ?_⟩
      · exact ih.nodup.sublist (List.filter_sublist.map _)
      · exact Nat.le_trans (sum_filter_le _ _ _) ih.hits
      · have := sum_filter_le st.keys (fun p => decide (p.1 ≠ k)) (fun p => p.2.misses)
        have := ih.misses
        simp only at *
        omega
  | unmonitorAll _ ih => exact ⟨by simp [Statistics.unmonitorAll], by simp [Statistics.unmonitorAll],
      by have := ih.misses; simp only [Statistics.unmonitorAll, List.map_nil, List.sum_nil]; omega⟩
  | @resetKey st st' k _ h ih =>
    unfold Statistics.resetKey at h
    split at h
    · cases h
    · injection h with h
      subst h
      refine ⟨?_, ?_, ?_⟩
      · exact (congrArg List.Nodup (updateKey_fst st.keys k (fun _ => {}))).mpr ih.nodup
      · have := sum_update ih.nodup k (fun _ => {}) 0 (·.hits) (by intro x; simp)
        have := ih.hits
        simp only [Statistics.updateKey] at *
        omega
      · have := sum_update ih.nodup k (fun _ => {}) 0 (·.misses) (by intro x; simp)
        have := ih.misses
        simp only [Statistics.updateKey] at *
        omega
  | @hit st k _ ih =>
    refine ⟨?_, ?_, ?_⟩
    · exact (congrArg List.Nodup (updateKey_fst st.keys k (fun x => { x with hits := x.hits + 1 }))).mpr ih.nodup
    · have := sum_update ih.nodup k (fun x => { x with hits := x.hits + 1 }) 1 (·.hits) (by intro x; simp)
      have := ih.hits
      simp only [Statistics.registerHit, Statistics.updateKey] at *
      omega
    · have := sum_update ih.nodup k (fun x => { x with hits := x.hits + 1 }) 0 (·.misses) (by intro x; simp)
      have := ih.misses
      simp only [Statistics.registerHit, Statistics.updateKey] at *
      omega
  | @miss st k _ ih =>
    refine ⟨?_, ?_, ?_⟩
    · exact (congrArg List.Nodup (updateKey_fst st.keys k (fun x => { x with misses := x.misses + 1 }))).mpr ih.nodup
    · have := sum_update ih.nodup k (fun x => { x with misses := x.misses + 1 }) 0 (·.hits) (by intro x; simp)
      have := ih.hits
      simp only [Statistics.registerMiss, Statistics.updateKey] at *
      omega
    · have := sum_update ih.nodup k (fun x => { x with misses := x.misses + 1 }) 1 (·.misses) (by intro x; simp)
      have := ih.misses
      simp only [Statistics.registerMiss, Statistics.updateKey] at *
      omega

/-- Calls on a statistics object do not change its totals. -/
theorem statStep_totals {st st' : Statistics K} {o : SOp K} (h : Impl.statStep st o = .ok st') :
    st'.totalAccesses = st.totalAccesses ∧ st'.totalHits = st.totalHits := by
  cases o with
  | monitor k =>
    injection h with h
    subst h
    unfold Statistics.monitor
    split <;> exact ⟨rfl, rfl⟩
  | unmonitor k =>
    have h : st.unmonitor k = _ := h
    unfold Statistics.unmonitor at h
    split at h
    · cases h
    · injection h with h; subst h; exact ⟨rfl, rfl⟩
  | unmonitorAll => injection h with h; subst h; exact ⟨rfl, rfl⟩
  | resetKey k =>
    have h : st.resetKey k = _ := h
    unfold Statistics.resetKey at h
    split at h
    · cases h
    · injection h with h; subst h; exact ⟨rfl, rfl⟩

theorem monitor_find (st : Statistics K) (j k : K) :
    (st.monitor j).find k = (st.find k).or (if k = j then some {} else none) := by
  unfold Statistics.monitor
  cases hf : st.find j with
  | some x =>
    simp only
    by_cases hk : k = j
    · subst hk; rw [hf]; rfl
    · rw [if_neg hk]; cases st.find k <;> rfl
  | none =>
    simp only [Statistics.find, List.find?_append]
    cases hg : st.keys.find? (fun p => decide (p.1 = k)) with
    | some p => rfl
    | none =>
      by_cases hk : k = j
      · subst hk; simp
      · have : ¬ j = k := fun h => hk h.symm
        simp [hk, this]

/-- A new object: zero, monitoring the given keys. -/
theorem ofKeys_zero (ks : List K) : (Statistics.ofKeys ks).totalAccesses = 0 ∧ (Statistics.ofKeys ks).totalHits = 0 ∧
    ∀ k, (Statistics.ofKeys ks).statsFor k = if k ∈ ks then .ok {} else .error .unmonitoredKey := by
  have key : ∀ (ks : List K) (st : Statistics K), (ks.foldl Statistics.monitor st).totalAccesses = st.totalAccesses ∧
      (ks.foldl Statistics.monitor st).totalHits = st.totalHits ∧
      ∀ k, (ks.foldl Statistics.monitor st).find k = (st.find k).or (if k ∈ ks then some {} else none) := by
    intro ks
    induction ks with
    | nil => intro st; exact ⟨rfl, rfl, fun k => by simp⟩
    | cons j ks ih =>
      intro st
      obtain ⟨h1, h2, h3⟩ := ih (st.monitor j)
      obtain ⟨h4, h5⟩ := statStep_totals (st := st) (o := .monitor j) rfl
      refine ⟨h1.trans h4, h2.trans h5, fun k => ?_⟩
      show (ks.foldl Statistics.monitor (st.monitor j)).find k = _
      rw [h3, monitor_find]
      by_cases hk : k = j
      · subst hk; cases st.find k <;> simp
      · cases st.find k <;> simp [hk]
  obtain ⟨h1, h2, h3⟩ := key ks {}
  refine ⟨h1, h2, fun k => ?_⟩
  unfold Statistics.statsFor
  have : (Statistics.ofKeys ks).find k = if k ∈ ks then some {} else none := by
    have := h3 k
    simpa [Statistics.find, Statistics.ofKeys] using this
  rw [this]
  by_cases hk : k ∈ ks <;> simp [hk]

/-- Quotients of counters. -/
theorem rat_div_bounds {a b : Nat} (h : a ≤ b) (hb : 0 < b) : 0 ≤ (a : Rat) / (b : Rat) ∧ (a : Rat) / (b : Rat) ≤ 1 := by
  have hb' : (0 : Rat) < (b : Rat) := Rat.natCast_pos.2 hb
  have hne : (b : Rat) ≠ 0 := by intro h; rw [h] at hb'; exact Rat.lt_irrefl hb'
  constructor
  · rw [← Rat.not_lt, Rat.div_lt_iff hb', Rat.zero_mul, Rat.not_lt]
    exact Rat.natCast_nonneg
  · rw [← Rat.not_lt, Rat.lt_div_iff hb', Rat.one_mul, Rat.not_lt]
    exact Rat.natCast_le_natCast.2 h

end LRU
