import Verif.Proofs.Durations
/-!
# C91: durations with machine integers
-/

set_option autoImplicit false
set_option linter.unusedSectionVars false

namespace LRU

section

variable {w num den : Nat} {ttl d n : Int}

/-- C91. With 64-bit durations whose unit is a whole number of ticks (nanoseconds, ..., hours) nothing overflows: the cache
is the one of the model. -/
theorem C91_coarse_durations (hden : 0 < den) {time now : Int} (h1 : -2 ^ 63 ≤ now - time) (h2 : now - time < 2 ^ 63) :
    wordExpired 64 1 den ttl (now - time) = some (Kind.expired (.timed ttl den) time now) := by
  obtain ⟨b1, b2⟩ := tdiv_bounds hden h1 h2
  have k : wordCast 64 1 den (now - time) = some ((now - time).tdiv den) := by
    unfold wordCast
    split
    · next h =>
      subst h
      rw [if_pos rfl, narrow_same (by decide) h1 h2, show ((1 : Nat) : Int) = 1 from rfl, Int.tdiv_one]
    · rw [if_pos rfl, narrow_same (by decide) b1 b2]
  unfold wordExpired Kind.expired
  rw [k]
  rfl

/-- C91. The same for durations with fewer bits, as long as the time that has passed fits into them. -/
theorem C91_narrow_durations_partial (hw : 0 < w) (hden : 0 < den) {time now : Int} (h1 : -2 ^ (w - 1) ≤ (now - time).tdiv den)
    (h2 : (now - time).tdiv den < 2 ^ (w - 1)) :
    wordExpired w 1 den ttl (now - time) = some (Kind.expired (.timed ttl den) time now) := by
  have k : wordCast w 1 den (now - time) = some ((now - time).tdiv den) := by
    unfold wordCast
    split
    · next h =>
      subst h
      rw [show ((1 : Nat) : Int) = 1 from rfl, Int.tdiv_one] at h1 h2
      rw [if_pos rfl, narrow_same hw h1 h2, show ((1 : Nat) : Int) = 1 from rfl, Int.tdiv_one]
    · rw [if_pos rfl, narrow_same hw h1 h2]
  unfold wordExpired Kind.expired
  rw [k]
  rfl

/-- C91. With 64-bit durations whose unit is a fraction of a tick, the test is undefined exactly if the time that has passed
is too long for them; otherwise the cache is one of the model. -/
theorem C91_fine_durations (hnum : 1 < num) {time now : Int} :
    (wordExpired 64 num 1 ttl (now - time) = none ↔ ¬(-2 ^ 63 ≤ (now - time) * num ∧ (now - time) * num < 2 ^ 63)) ∧
    (wordExpired 64 num 1 ttl (now - time) ≠ none →
      wordExpired 64 num 1 ttl (now - time) = some (Kind.expired (.timed (ttl / num) 1) time now)) := by
  have k : wordExpired 64 num 1 ttl (now - time) = if fits64 ((now - time) * num) then
      some (decide ((now - time) * num > ttl)) else none := by
    unfold wordExpired wordCast
    rw [if_pos rfl, if_neg (by omega)]
    split
    · next h =>
      obtain ⟨f1, f2⟩ := fits64_iff.1 h
      rw [narrow_same (by decide) f1 f2]; rfl
    · rfl
  rw [k]
  by_cases hf : fits64 ((now - time) * num) = true
  · rw [if_pos hf]
    refine ⟨⟨fun h => (Option.some_ne_none _ h).elim, fun h => absurd (fits64_iff.1 hf) h⟩, fun _ => ?_⟩
    unfold Kind.expired
    dsimp only
    rw [show ((1 : Nat) : Int) = 1 from rfl, Int.tdiv_one, Option.some.injEq, decide_eq_decide]
    exact (Int.ediv_lt_iff_lt_mul (by omega)).symm
  · rw [if_neg hf]
    exact ⟨⟨fun _ h => hf (fits64_iff.2 h), fun _ => rfl⟩, fun h => absurd rfl h⟩

/-- C91. The time to live that a constructor stores (`timed-cache.hpp` 94): the one it is given, in units of the `Duration` and
rounded towards zero, if it can be represented. -/
theorem C91_stored_time_to_live (hden : 0 < den) (h1 : -2 ^ 63 ≤ n * num) (h2 : n * num < 2 ^ 63) :
    wordCast 64 num den n = some ((n * num).tdiv den) := by
  obtain ⟨b1, b2⟩ := tdiv_bounds hden h1 h2
  unfold wordCast
  split
  · next h =>
    subst h
    rw [show ((1 : Nat) : Int) = 1 from rfl, Int.tdiv_one]
    split
    · next h => subst h; rw [show n * ((1 : Nat) : Int) = n by omega] at *; rw [narrow_same (by decide) h1 h2]
    · rw [if_pos (fits64_iff.2 ⟨h1, h2⟩), narrow_same (by decide) h1 h2]
  · split
    · next h => subst h; rw [show n * ((1 : Nat) : Int) = n by omega] at *; rw [narrow_same (by decide) b1 b2]
    · rw [if_pos (fits64_iff.2 ⟨h1, h2⟩), narrow_same (by decide) b1 b2]

end

/-- A `TimedCache<int, int, std::chrono::seconds>` that is given 90 minutes: it keeps 5400 seconds; an entry that is 5400.9
seconds old has not expired, one that is 5401 seconds old has. -/
example : wordCast 64 60 1 90 = some 5400 ∧ wordExpired 64 1 1000000000 5400 5400900000000 = some false ∧
    wordExpired 64 1 1000000000 5400 5401000000000 = some true := by decide +kernel

/-- C91 refuted for narrow durations: with `std::chrono::duration<int, std::milli>` and 32-bit `int`, an entry that has expired
is fresh again after 25 days. -/
theorem C91_expired_entries_come_back : ¬ ∀ ttl d d' : Int, 0 ≤ ttl → 0 ≤ d → d ≤ d' → d' < 2 ^ 63 →
    wordExpired 32 1 1000000 ttl d = some true → wordExpired 32 1 1000000 ttl d' = some true := by
  intro h
  have := h 100 101000000 2147483648000000 (by decide) (by decide) (by decide) (by decide) (by decide +kernel)
  exact absurd this (by decide +kernel)

/-- C91 refuted for fine durations: with picoseconds, testing an entry that is 107 days old is undefined. -/
theorem C91_fine_durations_overflow : ¬ ∀ ttl d : Int, 0 ≤ ttl → 0 ≤ d → d < 2 ^ 63 → wordExpired 64 1000 1 ttl d ≠ none := by
  intro h
  exact h 0 9223372036854776 (by decide) (by decide) (by decide) (by decide +kernel)

/-- C91 refuted for long times to live: three million hours (342 years) do not fit into 64-bit nanoseconds. -/
theorem C91_long_time_to_live_overflows : ¬ ∀ n : Int, 0 ≤ n → n < 2 ^ 31 → wordCast 64 3600000000000 1 n ≠ none := by
  intro h
  exact h 3000000 (by decide) (by decide) (by decide +kernel)

end LRU
