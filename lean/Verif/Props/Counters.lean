import Verif.Proofs.Counters
import Verif.Props.Stats
/-!
# C87: statistics with machine integers

The other theorems about statistics count with natural numbers. These are about 64-bit counters.
-/

set_option linter.unusedSectionVars false
set_option autoImplicit false

namespace LRU

variable {K : Type} [DecidableEq K]

/-- C87. After any calls the counters show the last 64 bits of the true numbers: accesses, hits, and also misses, although
these are computed by a subtraction of counters that may have wrapped around at different times. -/
theorem C87_totals (ks : List K) (l : List (StatCall K)) :
    ((WordStatistics.ofKeys ks).calls l).totalAccesses = BitVec.ofNat 64 (accessesIn l) ∧
    ((WordStatistics.ofKeys ks).calls l).totalHits = BitVec.ofNat 64 (hitsIn l) ∧
    ((WordStatistics.ofKeys ks).calls l).totalMisses = BitVec.ofNat 64 (missesIn l) := by
  obtain ⟨h1, h2⟩ := calls_totals (WordStatistics.ofKeys ks) l
  obtain ⟨h3, h4⟩ := ofKeys_totals ks
  rw [h3, BitVec.zero_add] at h1
  rw [h4, BitVec.zero_add] at h2
  refine ⟨h1, h2, ?_⟩
  unfold WordStatistics.totalMisses WordStatistics.totalAccesses WordStatistics.totalHits
  rw [h1, h2, accessesIn_eq, Nat.add_comm, shown_add, BitVec.add_sub_cancel]
  rfl

/-- C87. The same for a key that is monitored from some moment on: its counters grow by its hits and misses, modulo
`2 ^ 64`, as long as it is neither reset nor unmonitored. -/
theorem C87_key (st : WordStatistics K) (k : K) (l : List (StatCall K)) (hl : ∀ c ∈ l, ¬ c.Restarts k) (x : WordKeyStats)
    (hx : st.statsFor k = .ok x) :
    ∃ y, (st.calls l).statsFor k = .ok y ∧ y.hits = x.hits + BitVec.ofNat 64 (l.count (.hit k)) ∧
      y.misses = x.misses + BitVec.ofNat 64 (l.count (.miss k)) ∧
      y.accesses = x.accesses + BitVec.ofNat 64 (l.count (.hit k) + l.count (.miss k)) := by
  have hf : st.find k = some x := by
    unfold WordStatistics.statsFor at hx
    cases h : st.find k with
    | none => rw [h] at hx; cases hx
    | some y => rw [h] at hx; injection hx with hx; rw [hx]
  refine ⟨⟨x.hits + shown (l.count (.hit k)), x.misses + shown (l.count (.miss k))⟩, ?_, rfl, rfl, ?_⟩
  · unfold WordStatistics.statsFor
    rw [calls_key st k l hl x hf]
  · unfold WordKeyStats.accesses
    show x.hits + shown _ + (x.misses + shown _) = x.hits + x.misses + shown _
    rw [shown_add]
    ac_rfl

/-- C87. With fewer than `2 ^ 64` accesses the counters are exact, and so are the rates. -/
theorem C87_exact_partial (ks : List K) (l : List (StatCall K)) (hl : accessesIn l < 2 ^ 64) :
    ((WordStatistics.ofKeys ks).calls l).totalAccesses.toNat = accessesIn l ∧
    ((WordStatistics.ofKeys ks).calls l).totalHits.toNat = hitsIn l ∧
    ((WordStatistics.ofKeys ks).calls l).totalMisses.toNat = missesIn l ∧
    ((WordStatistics.ofKeys ks).calls l).hitRate =
      (if accessesIn l = 0 then none else some ((hitsIn l : Rat) / (accessesIn l : Rat))) ∧
    ((WordStatistics.ofKeys ks).calls l).missRate =
      (if accessesIn l = 0 then none else some ((missesIn l : Rat) / (accessesIn l : Rat))) := by
  obtain ⟨h1, h2, h3⟩ := C87_totals ks l
  have he := accessesIn_eq l
  have h4 : (BitVec.ofNat 64 (accessesIn l)).toNat = accessesIn l := shown_toNat hl
  have h5 : (BitVec.ofNat 64 (hitsIn l)).toNat = hitsIn l := shown_toNat (by omega)
  have h6 : (BitVec.ofNat 64 (missesIn l)).toNat = missesIn l := shown_toNat (by omega)
  have h7 : ((WordStatistics.ofKeys ks).calls l).hitRate =
      if accessesIn l = 0 then none else some ((hitsIn l : Rat) / (accessesIn l : Rat)) := by
    unfold WordStatistics.hitRate
    rw [h1, h2, h4, h5]
    by_cases h0 : accessesIn l = 0
    · rw [if_pos h0, if_pos (by rw [h0])]
    · rw [if_neg h0, if_neg]
      intro h
      rw [h] at h4
      exact h0 h4.symm
  refine ⟨by rw [h1, h4], by rw [h2, h5], by rw [h3, h6], h7, ?_⟩
  unfold WordStatistics.missRate
  rw [h7]
  by_cases h0 : accessesIn l = 0
  · rw [if_pos h0, if_pos h0]
    rfl
  · rw [if_neg h0, if_neg h0, ← rest_rate he h0]
    rfl

/-- C87. What a program does with a statistics object of natural numbers (the model of all other properties), it does
with the one with machine integers that shows these numbers: calls lead from one pair of such objects to another, and the
record of every key shows that of the other object. -/
theorem C87_same_object (st : Statistics K) (c : StatCall K) :
    (st.call c).words = st.words.call c ∧ (∀ ks : List K, (Statistics.ofKeys ks).words = WordStatistics.ofKeys ks) ∧
    (∀ k x, st.statsFor k = .ok x → st.words.statsFor k =
      .ok ⟨BitVec.ofNat 64 x.hits, BitVec.ofNat 64 x.misses⟩) ∧
    (∀ k e, st.statsFor k = .error e → st.words.statsFor k = .error e) := by
  refine ⟨words_call st c, words_ofKeys, ?_, ?_⟩
  · intro k x h
    unfold Statistics.statsFor at h
    unfold WordStatistics.statsFor
    rw [words_find]
    cases hf : st.find k with
    | none => rw [hf] at h; cases h
    | some y => rw [hf] at h; injection h with h; subst h; rfl
  · intro k e h
    unfold Statistics.statsFor at h
    unfold WordStatistics.statsFor
    rw [words_find]
    cases hf : st.find k with
    | none => rw [hf] at h; injection h with h; subst h; rfl
    | some y => rw [hf] at h; cases h

/-- C87. The statistics objects of all programs: what `total_accesses`, `total_hits` and `total_misses` of the object
with machine integers show are the last 64 bits of the numbers C18 to C20 are about. -/
theorem C87_in_programs {V : Type} [KeyEqual K] [DecidableEq V] {O : Oracle K V} {ok : WOp K V → Prop} {w : World K V}
    (hw : Reach O ok w) (i : Nat) :
    (w.g.stats i).words.totalAccesses = BitVec.ofNat 64 (w.g.stats i).totalAccesses ∧
    (w.g.stats i).words.totalHits = BitVec.ofNat 64 (w.g.stats i).totalHits ∧
    ∃ n, (w.g.stats i).totalMisses = some n ∧ (w.g.stats i).words.totalMisses = BitVec.ofNat 64 n := by
  obtain ⟨h1, h2, _⟩ := C20_totals _ (C20_in_programs hw i)
  refine ⟨rfl, rfl, _, h2, ?_⟩
  show shown (w.g.stats i).totalAccesses - shown (w.g.stats i).totalHits = shown _
  have h3 : shown (w.g.stats i).totalAccesses =
      shown ((w.g.stats i).totalAccesses - (w.g.stats i).totalHits) + shown (w.g.stats i).totalHits := by
    rw [← shown_add, Nat.sub_add_cancel h1]
  rw [h3, BitVec.add_sub_cancel]

/-- C87 is false of the rates: `2 ^ 64 - 1` hits and two misses are one access as far as the counters show, and the hit
rate exceeds 1. -/
theorem C87_rate_refuted :
    ¬ ∀ (ks : List Nat) (l : List (StatCall Nat)) (r : Rat),
      ((WordStatistics.ofKeys ks).calls l).hitRate = some r → r ≤ 1 := by
  intro h
  have h1 : accessesIn (List.replicate (2 ^ 64 - 1) (StatCall.hit 0) ++ [.miss 0, .miss 0]) = 2 ^ 64 + 1 := by
    unfold accessesIn
    rw [List.countP_append, List.countP_replicate]
    rfl
  have h2 : hitsIn (List.replicate (2 ^ 64 - 1) (StatCall.hit 0) ++ [.miss 0, .miss 0]) = 2 ^ 64 - 1 := by
    unfold hitsIn
    rw [List.countP_append, List.countP_replicate]
    rfl
  have h3 := h [] (List.replicate (2 ^ 64 - 1) (StatCall.hit 0) ++ [.miss 0, .miss 0])
    ((2 ^ 64 - 1 : Nat) / (1 : Nat)) ?_
  · revert h3
    decide +kernel
  · obtain ⟨h4, h5, _⟩ := C87_totals ([] : List Nat) (List.replicate (2 ^ 64 - 1) (StatCall.hit 0) ++ [.miss 0, .miss 0])
    unfold WordStatistics.hitRate
    rw [h4, h5, h1, h2, if_neg (by decide)]
    rfl

/-- C87 is false of the rates: after `2 ^ 64` accesses there is no hit rate. -/
theorem C87_no_rate_refuted :
    ¬ ∀ (ks : List Nat) (l : List (StatCall Nat)), 0 < accessesIn l → ((WordStatistics.ofKeys ks).calls l).hitRate ≠ none := by
  intro h
  have h1 : accessesIn (List.replicate (2 ^ 64) (StatCall.hit 0)) = 2 ^ 64 := by
    unfold accessesIn
    rw [List.countP_replicate]
    rfl
  refine h [] (List.replicate (2 ^ 64) (.hit 0)) (by rw [h1]; decide) ?_
  unfold WordStatistics.hitRate
  rw [(C87_totals _ _).1, h1, if_pos (by decide)]

/-- Two hits and a miss, one of the hits on a monitored key; then counters that wrap around. -/
example : let l : List (StatCall Nat) := [.hit 1, .monitor 2, .miss 2, .hit 2, .unmonitor 1]
    accessesIn l = 3 ∧ hitsIn l = 2 ∧ missesIn l = 1 ∧ (∀ c ∈ l, ¬ c.Restarts 2) ∧
    ((WordStatistics.ofKeys [1]).calls l).totalMisses = 1#64 ∧ ((WordStatistics.ofKeys [1]).calls l).hitRate = some (2 / 3) ∧
    ((WordStatistics.ofKeys [1]).calls l).missRate = some (1 / 3) ∧
    (((WordStatistics.ofKeys [1, 2]).calls l).statsFor 2).toOption = some ⟨1#64, 1#64⟩ ∧
    (WordStatistics.calls ⟨BitVec.ofNat 64 (2 ^ 64 - 1), 5#64, []⟩ [.hit 1, .miss 1]).totalAccesses = 1#64 := by
  refine ⟨rfl, rfl, rfl, ?_, rfl, by decide +kernel, by decide +kernel, by decide +kernel, rfl⟩
  intro c hc
  simp only [List.mem_cons, List.not_mem_nil, or_false] at hc
  rcases hc with rfl | rfl | rfl | rfl | rfl <;> simp [StatCall.Restarts]

end LRU
