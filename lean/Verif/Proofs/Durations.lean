import Verif.Model.Durations
/-!
# Lemmas on durations with machine integers
-/

set_option autoImplicit false
set_option linter.unusedSectionVars false

namespace LRU

theorem fits64_iff {n : Int} : fits64 n = true ↔ -2 ^ 63 ≤ n ∧ n < 2 ^ 63 := by unfold fits64; rw [decide_eq_true_eq]

theorem narrow_same {w : Nat} (hw : 0 < w) {n : Int} (h1 : -2 ^ (w - 1) ≤ n) (h2 : n < 2 ^ (w - 1)) : narrow w n = n := by
  unfold narrow
  obtain ⟨v, rfl⟩ : ∃ v, w = v + 1 := ⟨w - 1, by omega⟩
  simp only [Nat.add_sub_cancel] at h1 h2
  have hp : ((2 ^ (v + 1) : Nat) : Int) = 2 * 2 ^ v := by simp [Int.pow_succ]; omega
  refine Int.bmod_eq_of_le ?_ ?_ <;> rw [hp] <;> omega

theorem tdiv_bounds {n : Int} {m : Nat} (hm : 0 < m) {b : Int} (h1 : -b ≤ n) (h2 : n < b) : -b ≤ n.tdiv m ∧ n.tdiv m < b := by
  have h : (n.tdiv m).natAbs ≤ n.natAbs := by rw [Int.natAbs_tdiv]; exact Nat.div_le_self _ _
  rcases Int.le_total 0 n with h0 | h0
  · have := Int.tdiv_nonneg h0 (show (0 : Int) ≤ m by omega)
    omega
  · have := Int.tdiv_nonneg (show 0 ≤ -n by omega) (show (0 : Int) ≤ m by omega)
    rw [Int.neg_tdiv] at this
    omega

end LRU
