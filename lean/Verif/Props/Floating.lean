import Verif.Proofs.Floating
import Verif.Proofs.StatInv
/-!
# C90: floating-point numbers

`TimedCache` compares durations that are floating-point numbers of milliseconds unless told otherwise, and the rates of
`Statistics` are floating-point numbers.
-/

set_option autoImplicit false
set_option linter.unusedSectionVars false

namespace LRU

section

variable {p q : Nat} {rnd : Rat → Rat}

/-- C90. `double` and `float` are roundings to 53 and 24 digits. -/
theorem C90_roundings : Rounding 53 1074 binary64 ∧ Rounding 24 149 binary32 :=
  ⟨nearest_rounding (by decide) 1074, nearest_rounding (by decide) 149⟩

/-- They do round, to the nearest number and, of two, to the even one. -/
example : binary64 (2 ^ 53 + 1) = 2 ^ 53 ∧ binary64 (2 ^ 53 + 3) = 2 ^ 53 + 4 ∧ binary64 (-(2 ^ 53 + 3)) = -(2 ^ 53 + 4) ∧
    binary64 (1 / 10) = 3602879701896397 / 2 ^ 55 ∧ binary32 16777217 = 16777216 ∧ binary64 (1 / 2 ^ 1075) = 0 := by
  decide +kernel

/-- C90. Whatever the rounding, the time to live and the unit of the `Duration`: there is a whole number of ticks of the
clock such that exactly those entries have expired that are older. So such a cache is one of the caches of the model. -/
theorem C90_threshold (R : Rounding p q rnd) {num den : Nat} (hnum : num ≤ 2 ^ 30) (hden : 0 < den) (ttl : Rat) :
    ∃ e : Int, -2 ^ 63 - 1 ≤ e ∧ e < 2 ^ 63 ∧ ∀ time now : Int, -2 ^ 63 ≤ now - time → now - time < 2 ^ 63 →
      floatExpired rnd num den ttl (now - time) = Kind.expired (.timed e 1) time now := by
  obtain ⟨e, h1, h2, h3⟩ := exists_threshold (floatExpired rnd num den ttl) (-2 ^ 63) (2 ^ 64) (by
    intro x y hx hxy hy h
    unfold floatExpired at h ⊢
    rw [decide_eq_true_eq] at h ⊢
    have := R.cast_mono hnum hden hxy hx (by simp at hy; omega)
    grind)
  refine ⟨e, h1, by simp at h2; omega, fun time now hl hh => ?_⟩
  have := h3 (now - time) hl (by simp; omega)
  unfold Kind.expired
  dsimp only
  rw [show ((1 : Nat) : Int) = 1 from rfl, Int.tdiv_one, Bool.eq_iff_iff, this, decide_eq_true_eq]

/-- C90. If the time to live is given in ticks of the clock, nothing expires before it has passed: whatever the
rounding, the `Duration` and the time to live. -/
theorem C90_never_early (R : Rounding p q rnd) {num den : Nat} (hnum : num ≤ 2 ^ 30) (hden : 0 < den) {n d : Int} (h : d ≤ n)
    (hd : -2 ^ 63 ≤ d) (hn : n < 2 ^ 63) : floatExpired rnd num den (durationCast rnd num den n) d = false := by
  have := R.cast_mono hnum hden h hd (by omega)
  unfold floatExpired
  rw [decide_eq_false_iff_not]
  grind

/-- C90. With the default `Duration`, a time to live that is a whole number of nanoseconds and less than `2 ^ 32`
milliseconds (49 days) is kept to the nanosecond, whatever the unit in which it is given and the rounding. -/
theorem C90_exact (R : Rounding 53 q rnd) (hq : 21 ≤ q) {num den : Nat} {n wanted : Int} (h0 : 0 ≤ n) (hnum : 0 < num)
    (hden : 0 < den) (hden' : den ≤ 1000000) (hw : wanted * den = n * num * 1000000) (hb : wanted < 2 ^ 32 * 1000000) {d : Int}
    (hd : -2 ^ 63 ≤ d) (hd' : d < 2 ^ 63) :
    floatExpired rnd 1 1000000 (durationCast rnd num den n) d = decide (wanted < d) := by
  have hnn : 0 ≤ n * num := Int.mul_nonneg h0 (by omega)
  have hw0 : 0 ≤ wanted := by
    by_cases h : 0 ≤ wanted
    · exact h
    · have := Int.mul_neg_of_neg_of_pos (show wanted < 0 by omega) (show (0 : Int) < den by omega)
      omega
  have hle : n * num ≤ wanted := by
    have := Int.mul_le_mul_of_nonneg_left (show (den : Int) ≤ 1000000 by omega) hw0
    omega
  have hdp : (0 : Rat) < den := Rat.natCast_pos.2 hden
  have hmp : (0 : Rat) < ((1000000 : Nat) : Rat) := by decide +kernel
  have ttl : durationCast rnd num den n = durationCast rnd 1 1000000 wanted := by
    rw [R.cast_once h0 hnum hden (by omega), R.cast_once hw0 (by decide) (by decide) (by omega)]
    congr 1
    have hw' : (wanted : Rat) * den = ((n * num : Int) : Rat) * ((1000000 : Nat) : Rat) := by
      have := congrArg (fun x : Int => (x : Rat)) hw
      simpa [Rat.intCast_natCast] using this
    have e1 : ((wanted * (1 : Nat) : Int) : Rat) = wanted := by simp
    rw [e1, ← Rat.mul_div_cancel (a := ((n * num : Int) : Rat) / den) (b := ((1000000 : Nat) : Rat)) (by grind)]
    congr 1
    grind
  rw [ttl]
  by_cases hcmp : d ≤ wanted
  · rw [C90_never_early R (by decide) (by decide) hcmp hd (by omega)]
    exact (decide_eq_false (by omega)).symm
  · rw [decide_eq_true (show wanted < d by omega)]
    unfold floatExpired
    rw [decide_eq_true_eq]
    have step := R.cast_mono (num := 1) (den := 1000000) (by decide) (by decide) (show wanted + 1 ≤ d by omega) (by omega) (by omega)
    have c0 := R.cast_once (den := 1000000) hw0 (by decide : 0 < 1) (by decide) (by omega)
    have c1 := R.cast_once (den := 1000000) (show 0 ≤ wanted + 1 by omega) (by decide : 0 < 1) (by decide) (by omega)
    have e0 : ((wanted * (1 : Nat) : Int) : Rat) = wanted := by simp
    have e1 : (((wanted + 1) * (1 : Nat) : Int) : Rat) = ((wanted + 1 : Int) : Rat) := by
      rw [show ((wanted + 1) * (1 : Nat) : Int) = wanted + 1 by omega]
    rw [e0] at c0
    rw [e1] at c1
    obtain ⟨m, hm⟩ : ∃ m : Int, m = wanted * 2097152 / 1000000 := ⟨_, rfl⟩
    have f1 := R.frac (m := m + 1) (j := 21) (by omega) (by omega) (by decide) hq
    have f2 := R.frac (m := m + 2) (j := 21) (by omega) (by omega) (by decide) hq
    have t21 : (2 : Rat) ^ 21 = ((2097152 : Int) : Rat) := by decide +kernel
    have tm : ((1000000 : Nat) : Rat) = ((1000000 : Int) : Rat) := by decide +kernel
    rw [t21] at f1 f2
    rw [tm] at c0 c1 hmp
    have x1 : (wanted : Rat) / ((1000000 : Int) : Rat) ≤ ((m + 1 : Int) : Rat) / ((2097152 : Int) : Rat) :=
      (frac_le (by decide) (by decide)).2 (by omega)
    have x2 : ((m + 2 : Int) : Rat) / ((2097152 : Int) : Rat) ≤ ((wanted + 1 : Int) : Rat) / ((1000000 : Int) : Rat) :=
      (frac_le (by decide) (by decide)).2 (by omega)
    have x3 : ¬ ((m + 2 : Int) : Rat) / ((2097152 : Int) : Rat) ≤ ((m + 1 : Int) : Rat) / ((2097152 : Int) : Rat) := by
      rw [frac_le (by decide) (by decide)]; omega
    have r1 := R.mono _ _ (frac_big (by decide) (by omega) (by omega)).1 x1 (frac_big (by decide) (by omega) (by omega)).2
    have r2 := R.mono _ _ (frac_big (by decide) (by omega) (by omega)).1 x2 (frac_big (by decide) (by omega) (by omega)).2
    rw [f1] at r1
    rw [f2] at r2
    rw [c1] at step
    rw [c0]
    grind

/-- C90. With the default `Duration`, the time to live is kept to within three microseconds, whatever the time to live
(in milliseconds) and the rounding. -/
theorem C90_three_microseconds (R : Rounding 53 q rnd) (hq : 9 ≤ q) (ttl : Rat) {d : Int} (hd : -2 ^ 63 ≤ d) (hd' : d < 2 ^ 63) :
    ((d : Rat) < ttl * 1000000 - 2978 → floatExpired rnd 1 1000000 ttl d = false) ∧
    (ttl * 1000000 + 2978 < (d : Rat) → floatExpired rnd 1 1000000 ttl d = true) := by
  obtain ⟨h1, h2⟩ := R.cast_close hq hd hd'
  unfold floatExpired
  rw [decide_eq_false_iff_not, decide_eq_true_eq]
  generalize durationCast rnd 1 1000000 d = x at *
  constructor <;> grind

/-- C90. With the default `Duration`, a time to live given as a whole number of milliseconds that is less than `2 ^ 33` (99
days) is kept to the nanosecond. -/
theorem C90_exact_millis (R : Rounding 53 q rnd) (hq : 20 ≤ q) {n : Int} (h0 : 0 ≤ n) (hb : n < 2 ^ 33) {d : Int} (hd : -2 ^ 63 ≤ d)
    (hd' : d < 2 ^ 63) : floatExpired rnd 1 1000000 (durationCast rnd 1 1 n) d = decide (n * 1000000 < d) := by
  have ht : durationCast rnd 1 1 n = n := by
    unfold durationCast; rw [if_pos rfl, if_pos rfl]; exact R.whole (by decide) (by omega) (by omega)
  have tm : ((1000000 : Nat) : Rat) = ((1000000 : Int) : Rat) := by decide +kernel
  have low := R.cast_once (den := 1000000) (n := n * 1000000) (by omega) (by decide : 0 < 1) (by decide) (by omega)
  have high := R.cast_once (den := 1000000) (n := n * 1000000 + 1) (by omega) (by decide : 0 < 1) (by decide) (by omega)
  have e0 : (((n * 1000000) * (1 : Nat) : Int) : Rat) / ((1000000 : Nat) : Rat) = n := by
    rw [show ((n * 1000000) * (1 : Nat) : Int) = n * 1000000 by omega, Rat.intCast_mul, tm]
    exact Rat.mul_div_cancel (by decide +kernel)
  rw [e0, R.whole (by decide) (by omega) (by omega)] at low
  rw [ht]
  unfold floatExpired
  rw [decide_eq_decide]
  constructor
  · intro h
    by_cases hcmp : n * 1000000 < d
    · exact hcmp
    · have := R.cast_mono (num := 1) (den := 1000000) (by decide) (by decide) (show d ≤ n * 1000000 by omega) hd (by omega)
      grind
  · intro h
    have step := R.cast_mono (num := 1) (den := 1000000) (by decide) (by decide) (show n * 1000000 + 1 ≤ d by omega) (by omega) (by omega)
    have f := R.frac (m := n * 1048576 + 1) (j := 20) (by omega) (by omega) (by decide) hq
    have t20 : (2 : Rat) ^ 20 = ((1048576 : Int) : Rat) := by decide +kernel
    rw [t20] at f
    rw [show ((n * 1000000 + 1) * (1 : Nat) : Int) = n * 1000000 + 1 by omega, tm] at high
    have x : ((n * 1048576 + 1 : Int) : Rat) / ((1048576 : Int) : Rat) ≤ ((n * 1000000 + 1 : Int) : Rat) / ((1000000 : Int) : Rat) :=
      (frac_le (by decide) (by decide)).2 (by omega)
    have y : ¬ ((n * 1048576 + 1 : Int) : Rat) / ((1048576 : Int) : Rat) ≤ (n : Rat) / ((1 : Int) : Rat) := by
      rw [frac_le (by decide) (by decide)]; omega
    have one : (n : Rat) / ((1 : Int) : Rat) = n := by grind
    rw [one] at y
    have r := R.mono _ _ (frac_big (by decide) (by omega) (by omega)).1 x (frac_big (by decide) (by omega) (by omega)).2
    rw [f, ← high] at r
    grind

/-- C90. With the default `Duration`, nothing expires before a time to live given as a whole number of milliseconds has
passed if it is at most `2 ^ 53 / 5 ^ 6` (18 years). -/
theorem C90_millis_never_early (R : Rounding 53 q rnd) {n : Int} (h0 : 0 ≤ n) (hb : n * 5 ^ 6 ≤ 2 ^ 53) {d : Int}
    (hd : -2 ^ 63 ≤ d) (h : d ≤ n * 1000000) : floatExpired rnd 1 1000000 (durationCast rnd 1 1 n) d = false := by
  have ht : durationCast rnd 1 1 n = n := by
    unfold durationCast; rw [if_pos rfl, if_pos rfl]; exact R.whole (by decide) (by omega) (by omega)
  have hs := R.cast_mono (num := 1) (den := 1000000) (by decide) (by decide) h hd (by omega)
  have e : durationCast rnd 1 1000000 (n * 1000000) = n := by
    have c : ((n * 1000000 : Int) : Rat) = ((n * 15625 : Int) : Rat) * 2 ^ 6 := by
      have t6 : (2 : Rat) ^ 6 = ((64 : Int) : Rat) := by decide +kernel
      rw [t6, ← Rat.intCast_mul]; congr 1; omega
    have f := R.coarse (n * 15625) 6 (by omega) (by omega) (c ▸ le_big (by omega)) (c ▸ big_le (by omega))
    rw [← c] at f
    have tm : ((1000000 : Nat) : Rat) = ((1000000 : Int) : Rat) := by decide +kernel
    unfold durationCast
    rw [if_neg (by decide), if_pos rfl, f, Rat.intCast_mul, tm, Rat.mul_div_cancel (by decide +kernel)]
    exact R.whole (by decide) (by omega) (by omega)
  rw [ht]
  unfold floatExpired
  rw [decide_eq_false_iff_not]
  grind

/-- C90. So the default cache with such a time to live is the cache of the model whose clock and time to live are in
nanoseconds. -/
theorem C90_default_cache {n : Int} (h0 : 0 ≤ n) (hb : n < 2 ^ 33) {time now : Int} (hd : -2 ^ 63 ≤ now - time)
    (hd' : now - time < 2 ^ 63) :
    floatExpired binary64 1 1000000 (durationCast binary64 1 1 n) (now - time) = Kind.expired (.timed (n * 1000000) 1) time now := by
  rw [C90_exact_millis C90_roundings.1 (by decide) h0 hb hd hd']
  unfold Kind.expired
  dsimp only
  rw [show ((1 : Nat) : Int) = 1 from rfl, Int.tdiv_one]

end

/-- Ninety seconds, to the nanosecond, given in seconds or in microseconds; a time to live of a third of a millisecond
is rounded, and so is the time that has passed. -/
example : floatExpired binary64 1 1000000 (durationCast binary64 1000 1 90) 90000000000 = false ∧
    floatExpired binary64 1 1000000 (durationCast binary64 1000 1 90) 90000000001 = true ∧
    floatExpired binary64 1 1000000 (durationCast binary64 1 1000 90000000) 90000000001 = true ∧
    binary64 (1 / 3) ≠ 1 / 3 ∧ floatExpired binary64 1 1000000 (binary64 (1 / 3)) 333333 = false ∧
    floatExpired binary64 1 1000000 (binary64 (1 / 3)) 333334 = true := by decide +kernel

/-- The hypotheses of `C90_exact` for ninety seconds. -/
example : (90000000000 : Int) * (1 : Nat) = 90 * (1000 : Nat) * 1000000 ∧ (90000000000 : Int) < 2 ^ 32 * 1000000 := by decide

/-! The bounds above are needed, even in the default mode. -/

/-- C90 refuted for long times to live: four milliseconds beyond the bound of `C90_millis_never_early`, an entry expires
when its time to live has not passed yet. -/
theorem C90_expires_early : ¬ ∀ n d : Int, 0 ≤ n → d ≤ n * 1000000 → 0 ≤ d → d < 2 ^ 63 →
    floatExpired binary64 1 1000000 (durationCast binary64 1 1 n) d = false := by
  intro h
  have := h 576460752307 576460752307000000 (by decide) (by decide) (by decide) (by decide)
  exact absurd this (by decide +kernel)

/-- C90 refuted for long times to live: after 105 days an entry whose time to live has passed has not expired yet. -/
theorem C90_expires_late : ¬ ∀ n d : Int, 0 ≤ n → n * 1000000 < d → d < 2 ^ 63 →
    floatExpired binary64 1 1000000 (durationCast binary64 1 1 n) d = true := by
  intro h
  have := h 9007199255 9007199255000001 (by decide) (by decide) (by decide)
  exact absurd this (by decide +kernel)

/-! ### Rates -/

section

variable {p q : Nat} {rnd : Rat → Rat} {K : Type} [DecidableEq K] {st : Statistics K}

/-- C90. The rates lie between 0 and 1 as soon as there was an access, whatever the rounding. -/
theorem C90_rates_bounds (R : Rounding p q rnd) (hp : p ≤ 100) (hst : StatState st) (h0 : 0 < st.totalAccesses)
    (hb : st.totalAccesses < 2 ^ 64) :
    0 ≤ floatHitRate rnd st.totalHits st.totalAccesses ∧ floatHitRate rnd st.totalHits st.totalAccesses ≤ 1 ∧
    0 ≤ floatMissRate rnd st.totalHits st.totalAccesses ∧ floatMissRate rnd st.totalHits st.totalAccesses ≤ 1 := by
  have hh : st.totalHits ≤ st.totalAccesses := by
    have := hst.ok.misses; unfold Statistics.totalHits Statistics.totalAccesses; omega
  exact float_rate_bounds R hp hh h0 hb

/-- C90. Up to `2 ^ 53` accesses (of any kind) the hit rate and the miss rate are accurate to 53 binary digits, add up to
1 with the same accuracy, and tell whether there were only hits, only misses or both. -/
theorem C90_rates (R : Rounding 53 q rnd) (hq : 53 ≤ q) (hst : StatState st) (h0 : 0 < st.totalAccesses)
    (hb : st.totalAccesses ≤ 2 ^ 53) {rate hit miss : Rat} (hrate : st.hitRate = some rate)
    (hhit : hit = floatHitRate rnd st.totalHits st.totalAccesses) (hmiss : miss = floatMissRate rnd st.totalHits st.totalAccesses) :
    rate - 1 / 2 ^ 53 ≤ hit ∧ hit ≤ rate + 1 / 2 ^ 53 ∧ 1 - 1 / 2 ^ 53 ≤ hit + miss ∧ hit + miss ≤ 1 + 1 / 2 ^ 53 ∧
    (hit = 0 ↔ st.totalHits = 0) ∧ (hit = 1 ↔ st.totalHits = st.totalAccesses) ∧
    (miss = 0 ↔ st.totalHits = st.totalAccesses) ∧ (miss = 1 ↔ st.totalHits = 0) := by
  have hh : st.totalHits ≤ st.totalAccesses := by
    have := hst.ok.misses; unfold Statistics.totalHits Statistics.totalAccesses; omega
  have hr : rate = (st.totalHits : Rat) / st.totalAccesses := by
    unfold Statistics.hitRate at hrate
    unfold Statistics.totalAccesses at h0
    rw [if_neg (by omega)] at hrate
    exact (Option.some.inj hrate).symm
  rw [hr, hhit, hmiss]
  exact float_rates R hq hh h0 hb

end

/-- Two hits and a miss; the rates are rounded. -/
example : let st := (((Statistics.ofKeys [1]).registerHit 1).registerHit 2).registerMiss 7
    StatState st ∧ st.hitRate = some (2 / 3) ∧ floatHitRate binary64 st.totalHits st.totalAccesses = 6004799503160661 / 2 ^ 53 ∧
    floatMissRate binary64 st.totalHits st.totalAccesses = 3002399751580331 / 2 ^ 53 :=
  ⟨.miss 7 (.hit 2 (.hit 1 (.new [1]))), by decide +kernel⟩

/-- C90 refuted for more accesses: a hit rate of 1 although there was a miss. -/
theorem C90_rates_hide_a_miss : ¬ ∀ hits total : Nat, hits < total → total < 2 ^ 64 → floatHitRate binary64 hits total < 1 := by
  intro h
  have := h (2 ^ 53) (2 ^ 53 + 1) (by decide) (by decide)
  exact absurd this (by decide +kernel)

end LRU
