import Verif.Spec.Floating
/-!
# Lemmas on floating-point numbers
-/

set_option autoImplicit false
set_option linter.unusedSectionVars false

namespace LRU

/-! ### Rounding to nearest -/

theorem floor_le_halfEven (w : Rat) : w.floor ≤ halfEven w := by
  unfold halfEven; dsimp only; split
  · omega
  · split
    · omega
    · split <;> omega

theorem halfEven_le_succ (w : Rat) : halfEven w ≤ w.floor + 1 := by
  unfold halfEven; dsimp only; split
  · omega
  · split
    · omega
    · split <;> omega

theorem halfEven_mono {v w : Rat} (h : v ≤ w) : halfEven v ≤ halfEven w := by
  have hf := Rat.floor_monotone h
  by_cases he : v.floor = w.floor
  · unfold halfEven
    dsimp only
    rw [he]
    split <;> split <;> (try split) <;> (try split) <;> (try split) <;> (try omega) <;> exfalso <;> grind
  · have h1 := halfEven_le_succ v
    have h2 := floor_le_halfEven w
    omega

theorem halfEven_intCast (n : Int) : halfEven (n : Rat) = n := by
  unfold halfEven
  dsimp only
  rw [Rat.floor_intCast, if_pos (by grind)]

theorem two_pow_pos (n : Nat) : (0 : Rat) < 2 ^ n := Rat.pow_pos (by decide)

/-- A multiple of the last digit kept bounds the rounded number if it bounds the number. -/
theorem round_le {z : Rat} {s : Nat} {c : Int} (h : z ≤ (c * 2 ^ s : Int)) : halfEven (z / 2 ^ s) * 2 ^ s ≤ c * 2 ^ s := by
  have hp := two_pow_pos s
  have h1 : z / 2 ^ s ≤ (c : Rat) := by
    rw [← Rat.not_lt, Rat.lt_div_iff hp, Rat.not_lt]
    simpa using h
  have h2 := halfEven_mono h1
  rw [halfEven_intCast] at h2
  exact Int.mul_le_mul_of_nonneg_right h2 (Int.le_of_lt (Int.pow_pos (by decide)))

theorem le_round {z : Rat} {s : Nat} {c : Int} (h : (c * 2 ^ s : Int) ≤ z) : c * 2 ^ s ≤ halfEven (z / 2 ^ s) * 2 ^ s := by
  have hp := two_pow_pos s
  have h1 : (c : Rat) ≤ z / 2 ^ s := by
    rw [← Rat.not_lt, Rat.div_lt_iff hp, Rat.not_lt]
    simpa using h
  have h2 := halfEven_mono h1
  rw [halfEven_intCast] at h2
  exact Int.mul_le_mul_of_nonneg_right h2 (Int.le_of_lt (Int.pow_pos (by decide)))

theorem pow_mul_of_le {s k : Nat} (h : s ≤ k) : (2 : Int) ^ k = 2 ^ (k - s) * 2 ^ s := by
  rw [← Int.pow_add]; congr 1; omega

/-- If `y` has more surplus digits than `x`, there is a power of two between them. -/
theorem surplus_gap {p q : Nat} (hp : 0 < p) {x y : Rat} (h : surplus p q x < surplus p q y) :
    ∃ k : Nat, surplus p q x ≤ k ∧ surplus p q y ≤ k ∧ x.abs * 2 ^ q < (2 ^ k : Int) ∧ ((2 ^ k : Int) : Rat) ≤ y.abs * 2 ^ q := by
  unfold surplus at h ⊢
  have hx0 : 0 ≤ (x.abs * 2 ^ q).floor := by
    rw [Rat.le_floor_iff]
    exact Rat.mul_nonneg Rat.abs_nonneg (Rat.le_of_lt (two_pow_pos q))
  have hy0 : 0 ≤ (y.abs * 2 ^ q).floor := by
    rw [Rat.le_floor_iff]
    exact Rat.mul_nonneg Rat.abs_nonneg (Rat.le_of_lt (two_pow_pos q))
  refine ⟨(y.abs * 2 ^ q).floor.toNat.log2, by omega, by omega, ?_, ?_⟩
  · rw [← Rat.floor_lt_iff]
    have h1 : (x.abs * 2 ^ q).floor.toNat < 2 ^ (y.abs * 2 ^ q).floor.toNat.log2 := by
      by_cases h0 : (x.abs * 2 ^ q).floor.toNat = 0
      · rw [h0]; exact Nat.two_pow_pos _
      · rw [← Nat.log2_lt h0]; omega
    have h2 := Int.ofNat_lt.2 h1
    rw [Int.toNat_of_nonneg hx0] at h2
    simpa using h2
  · rw [← Rat.le_floor_iff]
    have h0 : (y.abs * 2 ^ q).floor.toNat ≠ 0 := by
      intro h0; rw [h0] at h; simp [Nat.log2_zero] at h; omega
    have h2 := Int.ofNat_le.2 (Nat.log2_self_le h0)
    rw [Int.toNat_of_nonneg hy0] at h2
    simpa using h2

theorem nearest_mono {p : Nat} (hp : 0 < p) (q : Nat) {x y : Rat} (h : x ≤ y) : nearest p q x ≤ nearest p q y := by
  have hq := two_pow_pos q
  have key : halfEven (x * 2 ^ q / 2 ^ surplus p q x) * 2 ^ surplus p q x ≤
      halfEven (y * 2 ^ q / 2 ^ surplus p q y) * 2 ^ surplus p q y := by
    have hz : x * 2 ^ q ≤ y * 2 ^ q := Rat.mul_le_mul_of_nonneg_right h (Rat.le_of_lt hq)
    rcases Nat.lt_trichotomy (surplus p q x) (surplus p q y) with hs | hs | hs
    · obtain ⟨k, h1, h2, h3, h4⟩ := surplus_gap hp hs
      have hxx : x * 2 ^ q ≤ (2 ^ k : Int) := by
        refine Rat.le_trans (Rat.mul_le_mul_of_nonneg_right ?_ (Rat.le_of_lt hq)) (Rat.le_of_lt h3)
        by_cases h0 : 0 ≤ x
        · rw [Rat.abs_of_nonneg h0]; exact Rat.le_refl
        · exact Rat.le_trans (by grind) (Rat.abs_nonneg (x := x))
      have hyy : ((2 ^ k : Int) : Rat) ≤ y * 2 ^ q := by
        by_cases h0 : 0 ≤ y
        · rwa [Rat.abs_of_nonneg h0] at h4
        · rw [Rat.abs_of_nonpos (by grind)] at h4
          have : x.abs = -x := Rat.abs_of_nonpos (by grind)
          rw [this] at h3
          have : -x * 2 ^ q < -y * 2 ^ q := by grind
          have := (Rat.mul_lt_mul_right hq).1 this
          grind
      refine Int.le_trans (round_le (c := 2 ^ (k - surplus p q x)) ?_) (Int.le_trans (Int.le_of_eq ?_)
        (le_round (c := 2 ^ (k - surplus p q y)) ?_))
      · rwa [← pow_mul_of_le h1]
      · rw [← pow_mul_of_le h1, ← pow_mul_of_le h2]
      · rwa [← pow_mul_of_le h2]
    · rw [hs]
      have hp2 := two_pow_pos (surplus p q y)
      refine Int.mul_le_mul_of_nonneg_right (halfEven_mono ?_) (Int.le_of_lt (Int.pow_pos (by decide)))
      rw [← Rat.not_lt, Rat.div_lt_iff hp2, Rat.div_mul_cancel (by grind), Rat.not_lt]
      exact hz
    · obtain ⟨k, h1, h2, h3, h4⟩ := surplus_gap hp hs
      have hyy : ((-2 ^ k : Int) : Rat) ≤ y * 2 ^ q := by
        have : -y * 2 ^ q ≤ (2 ^ k : Int) := by
          refine Rat.le_trans (Rat.mul_le_mul_of_nonneg_right ?_ (Rat.le_of_lt hq)) (Rat.le_of_lt h3)
          by_cases h0 : 0 ≤ y
          · exact Rat.le_trans (by grind) (Rat.abs_nonneg (x := y))
          · rw [Rat.abs_of_nonpos (by grind)]; exact Rat.le_refl
        rw [Rat.intCast_neg]
        grind
      have hxx : x * 2 ^ q ≤ (-2 ^ k : Int) := by
        rw [Rat.intCast_neg]
        by_cases h0 : 0 ≤ x
        · rw [Rat.abs_of_nonneg h0] at h4
          rw [Rat.abs_of_nonneg (by grind)] at h3
          have : y * 2 ^ q < x * 2 ^ q := by grind
          have := (Rat.mul_lt_mul_right hq).1 this
          grind
        · rw [Rat.abs_of_nonpos (by grind)] at h4
          grind
      refine Int.le_trans (round_le (c := -2 ^ (k - surplus p q x)) ?_) (Int.le_trans (Int.le_of_eq ?_)
        (le_round (c := -2 ^ (k - surplus p q y)) ?_))
      · rwa [Int.neg_mul, ← pow_mul_of_le h2]
      · rw [Int.neg_mul, Int.neg_mul, ← pow_mul_of_le h1, ← pow_mul_of_le h2]
      · rwa [Int.neg_mul, ← pow_mul_of_le h1]
  unfold nearest
  rw [← Rat.not_lt, Rat.lt_div_iff hq, Rat.div_mul_cancel (by grind), Rat.not_lt]
  exact Rat.intCast_le_intCast.2 key

theorem nearest_exact {p q : Nat} (hp : 0 < p) {x : Rat} {m : Int} {e : Nat} (h1 : -2 ^ p ≤ m) (h2 : m ≤ 2 ^ p)
    (hx : x * 2 ^ q = (m * 2 ^ e : Int)) : nearest p q x = x := by
  have hq := two_pow_pos q
  have hn : (x.abs * 2 ^ q).floor.toNat = m.natAbs * 2 ^ e := by
    have : x.abs * 2 ^ q = ((m.natAbs * 2 ^ e : Int) : Rat) := by
      by_cases h0 : 0 ≤ x
      · rw [Rat.abs_of_nonneg h0, hx]
        have : (0 : Rat) ≤ (m * 2 ^ e : Int) := hx ▸ Rat.mul_nonneg h0 (Rat.le_of_lt hq)
        have : 0 ≤ m * 2 ^ e := by exact_mod_cast this
        have : 0 ≤ m := by
          by_cases hm : 0 ≤ m
          · exact hm
          · have := Int.mul_neg_of_neg_of_pos (by omega : m < 0) (show (0 : Int) < 2 ^ e from Int.pow_pos (by decide))
            omega
        rw [Int.natAbs_of_nonneg this]
      · rw [Rat.abs_of_nonpos (by grind), Rat.neg_mul, hx]
        have hneg : x * 2 ^ q ≤ 0 := by
          have := Rat.mul_le_mul_of_nonneg_right (c := 2 ^ q) (show x ≤ 0 by grind) (Rat.le_of_lt hq)
          grind
        rw [hx] at hneg
        have : m * 2 ^ e ≤ 0 := by exact_mod_cast hneg
        have : m ≤ 0 := by
          by_cases hm : m ≤ 0
          · exact hm
          · have := Int.mul_pos (by omega : 0 < m) (show (0 : Int) < 2 ^ e from Int.pow_pos (by decide))
            omega
        rw [← Rat.intCast_neg, ← Int.neg_mul]
        congr 2
        omega
    rw [this, Rat.floor_intCast]
    have : (m.natAbs * 2 ^ e : Int) = ((m.natAbs * 2 ^ e : Nat) : Int) := by simp
    rw [this, Int.toNat_natCast]
  have hdvd : ∃ c : Int, m * 2 ^ e = c * 2 ^ surplus p q x := by
    unfold surplus
    rw [hn]
    by_cases h0 : m = 0
    · exact ⟨0, by simp [h0]⟩
    have hle : m.natAbs ≤ 2 ^ p := by
      have : ((m.natAbs : Nat) : Int) ≤ ((2 ^ p : Nat) : Int) := by simp; omega
      exact Int.ofNat_le.1 this
    have hne : m.natAbs * 2 ^ e ≠ 0 := by
      have := Nat.mul_pos (show 0 < m.natAbs by omega) (Nat.two_pow_pos e)
      omega
    by_cases hlt : m.natAbs < 2 ^ p
    · have : (m.natAbs * 2 ^ e).log2 < p + e := by
        rw [Nat.log2_lt hne, Nat.pow_add]
        exact Nat.mul_lt_mul_of_pos_right hlt (Nat.two_pow_pos e)
      refine ⟨m * 2 ^ (e - ((m.natAbs * 2 ^ e).log2 + 1 - p)), ?_⟩
      rw [Int.mul_assoc, ← pow_mul_of_le (by omega)]
    · have he : m.natAbs = 2 ^ p := by omega
      rw [he, ← Nat.pow_add, Nat.log2_two_pow]
      have hm : m = 2 ^ p ∨ m = -2 ^ p := by
        have : ((m.natAbs : Nat) : Int) = ((2 ^ p : Nat) : Int) := by rw [he]
        simp at this
        omega
      rcases hm with hm | hm
      · exact ⟨2 ^ (p + e - (p + e + 1 - p)), by rw [← pow_mul_of_le (by omega), hm, Int.pow_add]⟩
      · exact ⟨-2 ^ (p + e - (p + e + 1 - p)), by rw [Int.neg_mul, ← pow_mul_of_le (by omega), hm, Int.pow_add, Int.neg_mul]⟩
  obtain ⟨c, hc⟩ := hdvd
  unfold nearest
  rw [hx, hc]
  have : ((c * 2 ^ surplus p q x : Int) : Rat) / 2 ^ surplus p q x = c := by
    have := two_pow_pos (surplus p q x)
    rw [Rat.intCast_mul, Rat.intCast_pow]
    exact Rat.mul_div_cancel (by grind)
  rw [this, halfEven_intCast, ← hc, ← hx]
  exact Rat.mul_div_cancel (by grind)

theorem nearest_rounding {p : Nat} (hp : 0 < p) (q : Nat) : Rounding p q (nearest p q) where
  mono x y _ h _ := nearest_mono hp q h
  fine m j h1 h2 hj _ _ := by
    refine nearest_exact (e := q - j) hp h1 h2 ?_
    have : (2 : Rat) ^ q = 2 ^ (q - j) * 2 ^ j := by
      have := congrArg (fun n : Int => (n : Rat)) (pow_mul_of_le hj)
      simpa using this
    rw [this, ← Rat.mul_assoc, Rat.mul_comm (_ / _), Rat.mul_assoc, Rat.div_mul_cancel (by have := two_pow_pos j; grind)]
    simp [Rat.mul_comm]
  coarse m j h1 h2 _ _ := by
    refine nearest_exact (e := j + q) hp h1 h2 ?_
    rw [Int.pow_add]
    simp [Rat.mul_assoc]

/-! ### Any rounding -/

theorem le_big {n : Int} (h : n ≤ 2 ^ 100) : (n : Rat) ≤ 2 ^ 100 := by
  have h1 : (n : Rat) ≤ (2 ^ 100 : Int) := Rat.intCast_le_intCast.2 h
  rwa [Rat.intCast_pow] at h1

theorem big_le {n : Int} (h : -2 ^ 100 ≤ n) : -2 ^ 100 ≤ (n : Rat) := by
  have h1 : ((-2 ^ 100 : Int) : Rat) ≤ n := Rat.intCast_le_intCast.2 h
  rwa [Rat.intCast_neg, Rat.intCast_pow] at h1

section rounding

variable {p q : Nat} {rnd : Rat → Rat}

theorem Rounding.whole (R : Rounding p q rnd) (hp : p ≤ 100) {n : Int} (h1 : -2 ^ p ≤ n) (h2 : n ≤ 2 ^ p) :
    rnd (n : Rat) = n := by
  have hb : (2 : Int) ^ p ≤ 2 ^ 100 := by
    have : ((2 ^ p : Nat) : Int) ≤ ((2 ^ 100 : Nat) : Int) := Int.ofNat_le.2 (Nat.pow_le_pow_right (by decide) hp)
    simpa using this
  have h3 := le_big (n := n) (by omega)
  have h4 := big_le (n := n) (by omega)
  have h5 : (n : Rat) / 2 ^ 0 = n := by grind
  have := R.fine n 0 h1 h2 (Nat.zero_le _) (by rwa [h5]) (by rwa [h5])
  rwa [h5] at this

/-- Fractions with few digits. -/
theorem Rounding.frac (R : Rounding p q rnd) {m : Int} {j : Nat} (h1 : -2 ^ p ≤ m) (h2 : m ≤ 2 ^ p) (hp : p ≤ 100) (hj : j ≤ q) :
    rnd ((m : Rat) / 2 ^ j) = m / 2 ^ j := by
  have hb : (2 : Int) ^ p ≤ 2 ^ 100 := by
    have : ((2 ^ p : Nat) : Int) ≤ ((2 ^ 100 : Nat) : Int) := Int.ofNat_le.2 (Nat.pow_le_pow_right (by decide) hp)
    simpa using this
  have hj1 : (1 : Int) ≤ 2 ^ j := by have := Int.pow_pos (n := 2) (m := j) (by decide); omega
  have hj2 : (1 : Rat) ≤ 2 ^ j := by
    have : ((1 : Int) : Rat) ≤ ((2 ^ j : Int) : Rat) := Rat.intCast_le_intCast.2 hj1
    simpa using this
  have hpos := two_pow_pos j
  have h3 := le_big (n := m) (by omega)
  have h4 := big_le (n := m) (by omega)
  have h6 : (2 : Rat) ^ 100 ≤ 2 ^ 100 * 2 ^ j := by
    have := Rat.mul_le_mul_of_nonneg_left (c := 2 ^ 100) hj2 (Rat.le_of_lt (two_pow_pos 100))
    rwa [Rat.mul_one] at this
  refine R.fine m j h1 h2 hj ?_ ?_
  · rw [← Rat.not_lt, Rat.lt_div_iff hpos, Rat.not_lt]
    exact Rat.le_trans h3 h6
  · rw [← Rat.not_lt, Rat.div_lt_iff hpos, Rat.not_lt, Rat.neg_mul]
    exact Rat.le_trans (Rat.neg_le_neg h6) h4

theorem Rounding.bound (R : Rounding p q rnd) {x : Rat} (h1 : -2 ^ 64 ≤ x) (h2 : x ≤ 2 ^ 64) :
    -2 ^ 64 ≤ rnd x ∧ rnd x ≤ 2 ^ 64 := by
  have hp : (1 : Int) ≤ 2 ^ p := by have := Int.pow_pos (n := 2) (m := p) (by decide); omega
  have e1 : ((1 : Int) : Rat) * 2 ^ 64 = 2 ^ 64 := by decide +kernel
  have e2 : ((-1 : Int) : Rat) * 2 ^ 64 = -2 ^ 64 := by decide +kernel
  have hi := R.coarse 1 64 (by omega) hp (by decide +kernel) (by decide +kernel)
  have lo := R.coarse (-1) 64 (by omega) (by omega) (by decide +kernel) (by decide +kernel)
  rw [e1] at hi
  rw [e2] at lo
  constructor
  · rw [← lo]; exact R.mono _ _ (by decide +kernel) h1 (Rat.le_trans h2 (by decide +kernel))
  · rw [← hi]; exact R.mono _ _ (Rat.le_trans (by decide +kernel) h1) h2 (by decide +kernel)

/-- The rounded number is no further away than the distance of numbers that are not rounded. -/
theorem Rounding.close_fine (R : Rounding p q rnd) (hp : p ≤ 64) {x : Rat} {j : Nat} (hj : j ≤ q)
    (h1 : ((-2 ^ p : Int) : Rat) ≤ x * 2 ^ j) (h2 : x * 2 ^ j < (2 ^ p : Int)) :
    x - 1 / 2 ^ j ≤ rnd x ∧ rnd x ≤ x + 1 / 2 ^ j := by
  have hpos := two_pow_pos j
  have hc1 : -2 ^ p ≤ (x * 2 ^ j).floor := Rat.le_floor_iff.2 h1
  have hc2 : (x * 2 ^ j).floor < 2 ^ p := Rat.floor_lt_iff.2 h2
  have hb : (2 : Int) ^ p ≤ 2 ^ 64 := by
    have : ((2 ^ p : Nat) : Int) ≤ ((2 ^ 64 : Nat) : Int) := Int.ofNat_le.2 (Nat.pow_le_pow_right (by decide) hp)
    simpa using this
  have l1 := Rat.floor_le (x * 2 ^ j)
  have l2 := Rat.lt_floor_add_one (x * 2 ^ j)
  generalize (x * 2 ^ j).floor = c at *
  have f1 := R.frac (m := c) hc1 (by omega) (by omega) hj
  have f2 := R.frac (m := c + 1) (by omega) (by omega) (by omega) hj
  have x1 : (c : Rat) / 2 ^ j ≤ x := by rw [← Rat.not_lt, Rat.lt_div_iff hpos, Rat.not_lt]; exact l1
  have x2 : x ≤ ((c + 1 : Int) : Rat) / 2 ^ j := by
    rw [← Rat.not_lt, Rat.div_lt_iff hpos, Rat.not_lt]; exact Rat.le_of_lt l2
  have e : ((c + 1 : Int) : Rat) / 2 ^ j = (c : Rat) / 2 ^ j + 1 / 2 ^ j := by
    rw [Rat.intCast_add]; grind
  have hj1 : (1 : Rat) ≤ 2 ^ j := by
    have hj1 : (1 : Int) ≤ 2 ^ j := by have := Int.pow_pos (n := 2) (m := j) (by decide); omega
    have : ((1 : Int) : Rat) ≤ ((2 ^ j : Int) : Rat) := Rat.intCast_le_intCast.2 hj1
    simpa using this
  have g : ∀ y : Rat, 0 ≤ y → y / 2 ^ j ≤ y := by
    intro y hy
    rw [← Rat.not_lt, Rat.lt_div_iff hpos, Rat.not_lt]
    have := Rat.mul_le_mul_of_nonneg_left hj1 hy
    rwa [Rat.mul_one] at this
  have b1 : -2 ^ 100 ≤ (c : Rat) / 2 ^ j := by
    have h64 := g (2 ^ 64) (by decide +kernel)
    have : ((-2 ^ 64 : Int) : Rat) ≤ c := Rat.intCast_le_intCast.2 (by omega)
    rw [Rat.intCast_neg, Rat.intCast_pow] at this
    have h3 : -2 ^ 64 / 2 ^ j ≤ (c : Rat) / 2 ^ j := by
      rw [← Rat.not_lt, Rat.div_lt_iff hpos, Rat.div_mul_cancel (by grind), Rat.not_lt]; exact this
    have h4 : (-2 ^ 64 : Rat) / 2 ^ j = -(2 ^ 64 / 2 ^ j) := by grind
    rw [h4] at h3
    exact Rat.le_trans (by decide +kernel) (Rat.le_trans (Rat.neg_le_neg h64) h3)
  have b2 : ((c + 1 : Int) : Rat) / 2 ^ j ≤ 2 ^ 100 := by
    have h64 := g (2 ^ 64) (by decide +kernel)
    have : ((c + 1 : Int) : Rat) ≤ ((2 ^ 64 : Int) : Rat) := Rat.intCast_le_intCast.2 (by omega)
    rw [Rat.intCast_pow] at this
    have h3 : ((c + 1 : Int) : Rat) / 2 ^ j ≤ 2 ^ 64 / 2 ^ j := by
      rw [← Rat.not_lt, Rat.div_lt_iff hpos, Rat.div_mul_cancel (by grind), Rat.not_lt]; exact this
    exact Rat.le_trans h3 (Rat.le_trans h64 (by decide +kernel))
  have r1 := R.mono _ _ b1 x1 (Rat.le_trans x2 b2)
  have r2 := R.mono _ _ (Rat.le_trans b1 x1) x2 b2
  rw [f1] at r1
  rw [f2] at r2
  rw [e] at r2 x2
  constructor <;> grind

/-- Whole numbers of at most 63 digits are changed by less than a unit of the tenth digit from the end if there are 53. -/
theorem Rounding.close_whole (R : Rounding 53 q rnd) {d : Int} (h1 : -2 ^ 63 ≤ d) (h2 : d < 2 ^ 63) :
    (d : Rat) - 1024 ≤ rnd d ∧ rnd d ≤ (d : Rat) + 1024 := by
  have fix : ∀ c : Int, -2 ^ 53 ≤ c → c ≤ 2 ^ 53 → rnd ((c * 1024 : Int) : Rat) = (c * 1024 : Int) := by
    intro c hc1 hc2
    have e : ((c * 1024 : Int) : Rat) = (c : Rat) * 2 ^ 10 := by
      rw [Rat.intCast_mul]; congr 1
    have := R.coarse c 10 hc1 hc2 (e ▸ le_big (by omega)) (e ▸ big_le (by omega))
    rw [e]; exact this
  have r1 := R.mono ((d / 1024 * 1024 : Int) : Rat) d (big_le (by omega)) (Rat.intCast_le_intCast.2 (by omega)) (le_big (by omega))
  have r2 := R.mono (d : Rat) (((d / 1024 + 1) * 1024 : Int) : Rat) (big_le (by omega)) (Rat.intCast_le_intCast.2 (by omega))
    (le_big (by omega))
  rw [fix _ (by omega) (by omega)] at r1 r2
  have x1 : ((d - 1024 : Int) : Rat) ≤ ((d / 1024 * 1024 : Int) : Rat) := Rat.intCast_le_intCast.2 (by omega)
  have x2 : (((d / 1024 + 1) * 1024 : Int) : Rat) ≤ ((d + 1024 : Int) : Rat) := Rat.intCast_le_intCast.2 (by omega)
  have e1 : ((d - 1024 : Int) : Rat) = (d : Rat) - 1024 := by rw [Rat.intCast_sub]; rfl
  have e2 : ((d + 1024 : Int) : Rat) = (d : Rat) + 1024 := by rw [Rat.intCast_add]; rfl
  rw [e1] at x1
  rw [e2] at x2
  exact ⟨Rat.le_trans x1 r1, Rat.le_trans r2 x2⟩

theorem div_le_div_pos {a b c : Rat} (hc : 0 < c) (h : a ≤ b) : a / c ≤ b / c := by
  rw [← Rat.not_lt, Rat.div_lt_iff hc, Rat.div_mul_cancel (by grind), Rat.not_lt]; exact h

/-- Casts keep the order. -/
theorem Rounding.cast_mono (R : Rounding p q rnd) {num den : Nat} (hn : num ≤ 2 ^ 30) (hd : 0 < den) {m n : Int} (h : m ≤ n)
    (hm : -2 ^ 63 ≤ m) (hn' : n ≤ 2 ^ 63) : durationCast rnd num den m ≤ durationCast rnd num den n := by
  have hmn : rnd (m : Rat) ≤ rnd n := R.mono _ _ (big_le (by omega)) (Rat.intCast_le_intCast.2 h) (le_big (by omega))
  have low : (-2 ^ 64 : Rat) ≤ m := by
    have h1 : ((-2 ^ 63 : Int) : Rat) ≤ m := Rat.intCast_le_intCast.2 hm
    exact Rat.le_trans (by decide +kernel) h1
  have high : (n : Rat) ≤ 2 ^ 64 := by
    have h1 : (n : Rat) ≤ ((2 ^ 63 : Int) : Rat) := Rat.intCast_le_intCast.2 hn'
    exact Rat.le_trans h1 (by decide +kernel)
  have hmn' : (m : Rat) ≤ n := Rat.intCast_le_intCast.2 h
  have b1 := (R.bound low (Rat.le_trans hmn' high)).1
  have b2 := (R.bound (Rat.le_trans low hmn') high).2
  have n0 : (0 : Rat) ≤ num := Rat.natCast_nonneg
  have n1 : (num : Rat) ≤ 2 ^ 30 := by
    have h1 : (num : Rat) ≤ ((2 ^ 30 : Nat) : Rat) := Rat.natCast_le_natCast.2 hn
    exact Rat.le_trans h1 (by decide +kernel)
  have mulmono : rnd (m : Rat) * num ≤ rnd n * num := Rat.mul_le_mul_of_nonneg_right hmn n0
  have b3 : -2 ^ 94 ≤ rnd (m : Rat) * num := by
    have h1 := Rat.mul_le_mul_of_nonneg_right b1 n0
    have h2 := Rat.mul_le_mul_of_nonneg_left (c := 2 ^ 64) n1 (by decide +kernel)
    have h3 : (2 : Rat) ^ 64 * 2 ^ 30 = 2 ^ 94 := by decide +kernel
    rw [h3] at h2
    rw [Rat.neg_mul] at h1
    exact Rat.le_trans (Rat.neg_le_neg h2) h1
  have b4 : rnd (n : Rat) * num ≤ 2 ^ 94 := by
    have h1 := Rat.mul_le_mul_of_nonneg_right b2 n0
    have h2 := Rat.mul_le_mul_of_nonneg_left (c := 2 ^ 64) n1 (by decide +kernel)
    have h3 : (2 : Rat) ^ 64 * 2 ^ 30 = 2 ^ 94 := by decide +kernel
    rw [h3] at h2
    exact Rat.le_trans h1 h2
  have dpos : (0 : Rat) < den := Rat.natCast_pos.2 hd
  have d1 : (1 : Rat) ≤ den := by
    have : ((1 : Nat) : Rat) ≤ den := Rat.natCast_le_natCast.2 hd
    simpa using this
  have up : ∀ {y B : Rat}, 0 ≤ B → y ≤ B → y / den ≤ B := by
    intro y B hB hy
    rw [← Rat.not_lt, Rat.lt_div_iff dpos, Rat.not_lt]
    have := Rat.mul_le_mul_of_nonneg_left d1 hB
    rw [Rat.mul_one] at this
    exact Rat.le_trans hy this
  have down : ∀ {y B : Rat}, 0 ≤ B → -B ≤ y → -B ≤ y / den := by
    intro y B hB hy
    rw [← Rat.not_lt, Rat.div_lt_iff dpos, Rat.not_lt, Rat.neg_mul]
    have := Rat.mul_le_mul_of_nonneg_left d1 hB
    rw [Rat.mul_one] at this
    exact Rat.le_trans (Rat.neg_le_neg this) hy
  have hp : (1 : Int) ≤ 2 ^ p := by have := Int.pow_pos (n := 2) (m := p) (by decide); omega
  unfold durationCast
  split
  · split
    · exact hmn
    · exact R.mono _ _ (Rat.le_trans (by decide +kernel) b3) mulmono (Rat.le_trans b4 (by decide +kernel))
  · split
    · exact R.mono _ _ (Rat.le_trans (by decide +kernel) (down (B := 2 ^ 64) (by decide +kernel) b1)) (div_le_div_pos dpos hmn)
        (Rat.le_trans (up (B := 2 ^ 64) (by decide +kernel) b2) (by decide +kernel))
    · have k1 := R.mono _ _ (Rat.le_trans (by decide +kernel) b3) mulmono (Rat.le_trans b4 (by decide +kernel))
      have lo : -2 ^ 94 ≤ rnd (rnd (m : Rat) * num) := by
        have e : ((-1 : Int) : Rat) * 2 ^ 94 = -2 ^ 94 := by decide +kernel
        have f := R.coarse (-1) 94 (by omega) (by omega) (by decide +kernel) (by decide +kernel)
        rw [e] at f
        rw [← f]
        exact R.mono _ _ (by decide +kernel) b3 (Rat.le_trans mulmono (Rat.le_trans b4 (by decide +kernel)))
      have hi : rnd (rnd (n : Rat) * num) ≤ 2 ^ 94 := by
        have e : ((1 : Int) : Rat) * 2 ^ 94 = 2 ^ 94 := by decide +kernel
        have f := R.coarse 1 94 (by omega) (by omega) (by decide +kernel) (by decide +kernel)
        rw [e] at f
        rw [← f]
        exact R.mono _ _ (Rat.le_trans (by decide +kernel) (Rat.le_trans b3 mulmono)) b4 (by decide +kernel)
      exact R.mono _ _ (Rat.le_trans (by decide +kernel) (down (B := 2 ^ 94) (by decide +kernel) lo)) (div_le_div_pos dpos k1)
        (Rat.le_trans (up (B := 2 ^ 94) (by decide +kernel) hi) (by decide +kernel))

/-- Casts of small numbers round once. -/
theorem Rounding.cast_once (R : Rounding 53 q rnd) {num den : Nat} {n : Int} (h0 : 0 ≤ n) (hnum : 0 < num) (hden : 0 < den)
    (h : n * num ≤ 2 ^ 53) : durationCast rnd num den n = rnd ((n * num : Int) / den) := by
  have hn : n ≤ n * num := by
    have := Int.mul_le_mul_of_nonneg_left (show (1 : Int) ≤ num by omega) h0
    rwa [Int.mul_one] at this
  have e0 := R.whole (by decide) (n := n) (by omega) (by omega)
  have e1 := R.whole (by decide) (n := n * num) (by omega) h
  have c : ((n * num : Int) : Rat) = (n : Rat) * num := by rw [Rat.intCast_mul]; rfl
  unfold durationCast
  rw [e0]
  have one : ∀ x : Rat, x / ((1 : Nat) : Rat) = x := by intro x; grind
  split
  · next h1 =>
    subst h1
    rw [one]
    split
    · next h2 => subst h2; rw [e1]; simp
    · rw [c]
  · split
    · next h2 => subst h2; simp
    · rw [← c, e1]

/-- How far casts to milliseconds can be off. -/
theorem Rounding.cast_close (R : Rounding 53 q rnd) (hq : 9 ≤ q) {d : Int} (h1 : -2 ^ 63 ≤ d) (h2 : d < 2 ^ 63) :
    (d : Rat) - 2978 ≤ durationCast rnd 1 1000000 d * 1000000 ∧ durationCast rnd 1 1000000 d * 1000000 ≤ (d : Rat) + 2978 := by
  obtain ⟨a1, a2⟩ := R.close_whole h1 h2
  have l : ((-2 ^ 63 : Int) : Rat) ≤ d := Rat.intCast_le_intCast.2 h1
  have u : (d : Rat) ≤ ((2 ^ 63 : Int) : Rat) := Rat.intCast_le_intCast.2 (by omega)
  have e : durationCast rnd 1 1000000 d = rnd (rnd d / ((1000000 : Nat) : Rat)) := by
    unfold durationCast; rw [if_neg (by decide), if_pos rfl]
  rw [e]
  generalize rnd (d : Rat) = r at *
  have c1 : ((-2 ^ 63 : Int) : Rat) = -9223372036854775808 := by decide +kernel
  have c2 : ((2 ^ 63 : Int) : Rat) = 9223372036854775808 := by decide +kernel
  have c3 : ((-2 ^ 53 : Int) : Rat) = -9007199254740992 := by decide +kernel
  have c4 : ((2 ^ 53 : Int) : Rat) = 9007199254740992 := by decide +kernel
  have c5 : (2 : Rat) ^ 9 = 512 := by decide +kernel
  have c6 : ((1000000 : Nat) : Rat) = 1000000 := by decide +kernel
  rw [c1] at l
  rw [c2] at u
  rw [c6]
  have k := R.close_fine (by decide) (x := r / 1000000) (j := 9) hq (by rw [c3, c5]; grind) (by rw [c4, c5]; grind)
  rw [c5] at k
  grind

end rounding

theorem frac_le {a b c d : Int} (hc : 0 < c) (hd : 0 < d) : (a : Rat) / c ≤ b / d ↔ a * d ≤ b * c := by
  have hc' : (0 : Rat) < c := Rat.intCast_pos.2 hc
  have hd' : (0 : Rat) < d := Rat.intCast_pos.2 hd
  rw [← Rat.intCast_le_intCast, Rat.intCast_mul, Rat.intCast_mul]
  have e : (a : Rat) * d = a / c * (c * d) := by grind
  have e' : (b : Rat) * c = b / d * (c * d) := by grind
  rw [e, e']
  have hp := Rat.mul_pos hc' hd'
  exact ⟨fun h => Rat.mul_le_mul_of_nonneg_right h (Rat.le_of_lt hp), fun h => Rat.le_of_mul_le_mul_right h hp⟩

theorem frac_big {a b : Int} (hb : 0 < b) (h1 : -2 ^ 100 ≤ a) (h2 : a ≤ 2 ^ 100) :
    -2 ^ 100 ≤ (a : Rat) / b ∧ (a : Rat) / b ≤ 2 ^ 100 := by
  have e1 : (-2 ^ 100 : Rat) = ((-2 ^ 100 : Int) : Rat) / ((1 : Int) : Rat) := by decide +kernel
  have e2 : (2 ^ 100 : Rat) = ((2 ^ 100 : Int) : Rat) / ((1 : Int) : Rat) := by decide +kernel
  rw [e1, e2, frac_le (by decide) hb, frac_le hb (by decide)]
  omega

/-- A property of the numbers of an interval that is inherited by larger numbers holds from some point on. -/
theorem exists_threshold (P : Int → Bool) (a : Int) (n : Nat) (hP : ∀ x y, a ≤ x → x ≤ y → y < a + n → P x = true → P y = true) :
    ∃ e : Int, a - 1 ≤ e ∧ e < a + n ∧ ∀ d, a ≤ d → d < a + n → (P d = true ↔ e < d) := by
  induction n with
  | zero => exact ⟨a - 1, by omega, by omega, fun d h1 h2 => by omega⟩
  | succ n ih =>
    obtain ⟨e, h1, h2, h3⟩ := ih (fun x y hx hxy hy => hP x y hx hxy (by omega))
    by_cases hl : P (a + n) = true
    · refine ⟨e, h1, by omega, fun d hd1 hd2 => ?_⟩
      by_cases hd : d < a + n
      · exact h3 d hd1 hd
      · have : d = a + n := by omega
        subst this
        exact ⟨fun _ => by omega, fun _ => hl⟩
    · refine ⟨a + n, by omega, by omega, fun d hd1 hd2 => ⟨fun h => ?_, fun h => by omega⟩⟩
      exact absurd (hP d (a + n) hd1 (by omega) (by omega) h) hl

section rates

variable {p q : Nat} {rnd : Rat → Rat} {hits total : Nat}

theorem Rounding.zero (R : Rounding p q rnd) (hp : p ≤ 100) : rnd 0 = 0 := by
  have h1 : (0 : Int) < 2 ^ p := Int.pow_pos (by decide)
  exact R.whole hp (n := 0) (by omega) (by omega)

theorem Rounding.one (R : Rounding p q rnd) (hp : p ≤ 100) : rnd 1 = 1 := by
  have h1 : (0 : Int) < 2 ^ p := Int.pow_pos (by decide)
  exact R.whole hp (n := 1) (by omega) (by omega)

theorem Rounding.unit (R : Rounding p q rnd) (hp : p ≤ 100) {x : Rat} (h0 : 0 ≤ x) (h1 : x ≤ 1) : 0 ≤ rnd x ∧ rnd x ≤ 1 := by
  have a := R.mono 0 x (by decide +kernel) h0 (Rat.le_trans h1 (by decide +kernel))
  have b := R.mono x 1 (Rat.le_trans (by decide +kernel) h0) h1 (by decide +kernel)
  rw [R.zero hp] at a
  rw [R.one hp] at b
  exact ⟨a, b⟩

theorem quotient_unit {a b : Rat} (h0 : 0 ≤ a) (h : a ≤ b) (hb : 0 < b) : 0 ≤ a / b ∧ a / b ≤ 1 := by
  constructor
  · rw [← Rat.not_lt, Rat.div_lt_iff hb, Rat.not_lt]; grind
  · rw [← Rat.not_lt, Rat.lt_div_iff hb, Rat.not_lt]; grind

theorem float_rate_bounds (R : Rounding p q rnd) (hp : p ≤ 100) (hh : hits ≤ total) (h0 : 0 < total) (hb : total < 2 ^ 64) :
    0 ≤ floatHitRate rnd hits total ∧ floatHitRate rnd hits total ≤ 1 ∧
    0 ≤ floatMissRate rnd hits total ∧ floatMissRate rnd hits total ≤ 1 := by
  have t : (total : Rat) ≤ 2 ^ 100 := le_big (n := total) (by omega)
  have a : rnd 0 ≤ rnd (hits : Rat) := R.mono _ _ (by decide +kernel) Rat.natCast_nonneg
    (Rat.le_trans (Rat.natCast_le_natCast.2 hh) t)
  have b : rnd (hits : Rat) ≤ rnd total := R.mono _ _ (Rat.le_trans (by decide +kernel) Rat.natCast_nonneg)
    (Rat.natCast_le_natCast.2 hh) t
  have c : rnd 1 ≤ rnd (total : Rat) := R.mono _ _ (by decide +kernel)
    (by have := Rat.natCast_le_natCast.2 (show 1 ≤ total from h0); simpa using this) t
  rw [R.zero hp] at a
  rw [R.one hp] at c
  obtain ⟨h1, h2⟩ := quotient_unit a b (by grind)
  obtain ⟨h3, h4⟩ := R.unit hp h1 h2
  have h5 := R.unit hp (x := 1 - floatHitRate rnd hits total) (by unfold floatHitRate; grind) (by unfold floatHitRate; grind)
  exact ⟨h3, h4, h5.1, h5.2⟩

theorem float_rates (R : Rounding 53 q rnd) (hq : 53 ≤ q) (hh : hits ≤ total) (h0 : 0 < total) (hb : total ≤ 2 ^ 53) :
    (hits : Rat) / total - 1 / 2 ^ 53 ≤ floatHitRate rnd hits total ∧
    floatHitRate rnd hits total ≤ (hits : Rat) / total + 1 / 2 ^ 53 ∧
    1 - 1 / 2 ^ 53 ≤ floatHitRate rnd hits total + floatMissRate rnd hits total ∧
    floatHitRate rnd hits total + floatMissRate rnd hits total ≤ 1 + 1 / 2 ^ 53 ∧
    (floatHitRate rnd hits total = 0 ↔ hits = 0) ∧ (floatHitRate rnd hits total = 1 ↔ hits = total) ∧
    (floatMissRate rnd hits total = 0 ↔ hits = total) ∧ (floatMissRate rnd hits total = 1 ↔ hits = 0) := by
  have e1 : rnd (hits : Rat) = hits := R.whole (by decide) (n := hits) (by omega) (by omega)
  have e2 : rnd (total : Rat) = total := R.whole (by decide) (n := total) (by omega) (by omega)
  have tp : (0 : Rat) < total := Rat.natCast_pos.2 h0
  have lo := R.frac (m := 1) (j := 53) (by decide) (by decide) (by decide) hq
  have hi := R.frac (m := 2 ^ 53 - 1) (j := 53) (by decide) (by decide) (by decide) hq
  have c53 : (2 : Rat) ^ 53 = ((2 ^ 53 : Int) : Rat) := by decide +kernel
  have clo : ((1 : Int) : Rat) / 2 ^ 53 = 1 / 2 ^ 53 := by decide +kernel
  have chi : ((2 ^ 53 - 1 : Int) : Rat) / 2 ^ 53 = 1 - 1 / 2 ^ 53 := by decide +kernel
  rw [clo] at lo
  rw [chi] at hi
  have upos : (0 : Rat) < 1 / 2 ^ 53 := by decide +kernel
  have usmall : (1 : Rat) / 2 ^ 53 ≤ 1 := by decide +kernel
  have near : ∀ x : Rat, 0 ≤ x → x ≤ 1 → x - 1 / 2 ^ 53 ≤ rnd x ∧ rnd x ≤ x + 1 / 2 ^ 53 := by
    intro x h1 h2
    by_cases hx : x = 1
    · subst hx; rw [R.one (by decide)]; grind
    · refine R.close_fine (by decide) hq ?_ ?_
      · refine Rat.le_trans (b := 0) (by decide +kernel) (Rat.mul_nonneg h1 (by decide +kernel))
      · rw [← c53]
        have := (Rat.mul_lt_mul_right (c := 2 ^ 53) (by decide +kernel)).2 (show x < 1 by grind)
        rwa [Rat.one_mul] at this
  have above : ∀ x : Rat, 1 / 2 ^ 53 ≤ x → x ≤ 1 → 1 / 2 ^ 53 ≤ rnd x := by
    intro x h1 h2
    have := R.mono _ _ (by decide +kernel) h1 (Rat.le_trans h2 (by decide +kernel))
    rwa [lo] at this
  have below : ∀ x : Rat, 0 ≤ x → x ≤ 1 - 1 / 2 ^ 53 → rnd x ≤ 1 - 1 / 2 ^ 53 := by
    intro x h1 h2
    have := R.mono _ _ (Rat.le_trans (by decide +kernel) h1) h2 (by decide +kernel)
    rwa [hi] at this
  have hq0 := quotient_unit (a := hits) (b := total) Rat.natCast_nonneg (Rat.natCast_le_natCast.2 hh) tp
  have someHit : hits ≠ 0 → 1 / 2 ^ 53 ≤ (hits : Rat) / total := by
    intro h
    have := (frac_le (a := 1) (b := hits) (c := 2 ^ 53) (d := total) (by decide) (by omega)).2 (by
      have := Int.mul_le_mul_of_nonneg_right (show (1 : Int) ≤ hits by omega) (show (0 : Int) ≤ 2 ^ 53 by decide)
      omega)
    rw [← c53, clo] at this
    exact this
  have someMiss : hits ≠ total → (hits : Rat) / total ≤ 1 - 1 / 2 ^ 53 := by
    intro h
    have := (frac_le (a := hits) (b := 2 ^ 53 - 1) (c := total) (d := 2 ^ 53) (by omega) (by decide)).2 (by omega)
    rw [← c53, chi] at this
    exact this
  have hE : floatHitRate rnd hits total = rnd ((hits : Rat) / total) := by unfold floatHitRate; rw [e1, e2]
  obtain ⟨n1, n2⟩ := near _ hq0.1 hq0.2
  obtain ⟨u1, u2⟩ := R.unit (by decide) hq0.1 hq0.2
  unfold floatMissRate
  rw [hE]
  generalize hx : (hits : Rat) / total = x at *
  obtain ⟨m1, m2⟩ := near (1 - rnd x) (by grind) (by grind)
  obtain ⟨v1, v2⟩ := R.unit (by decide) (x := 1 - rnd x) (by grind) (by grind)
  have none0 : hits = 0 → rnd x = 0 := by
    intro h
    have : x = 0 := by rw [← hx, h]; grind
    rw [this, R.zero (by decide)]
  have all1 : hits = total → rnd x = 1 := by
    intro h
    have : x = 1 := by rw [← hx, h]; grind
    rw [this, R.one (by decide)]
  have some0 : hits ≠ 0 → 1 / 2 ^ 53 ≤ rnd x := fun h => above x (someHit h) hq0.2
  have some1 : hits ≠ total → rnd x ≤ 1 - 1 / 2 ^ 53 := fun h => below x hq0.1 (someMiss h)
  refine ⟨n1, n2, by grind, by grind, ⟨fun h => ?_, none0⟩, ⟨fun h => ?_, all1⟩, ⟨fun h => ?_, fun h => ?_⟩, ⟨fun h => ?_, fun h => ?_⟩⟩
  · by_cases hc : hits = 0
    · exact hc
    · have := some0 hc; grind
  · by_cases hc : hits = total
    · exact hc
    · have := some1 hc; grind
  · by_cases hc : hits = total
    · exact hc
    · have := above (1 - rnd x) (by have := some1 hc; grind) (by grind); grind
  · rw [all1 h, show (1 : Rat) - 1 = 0 by decide +kernel, R.zero (by decide)]
  · by_cases hc : hits = 0
    · exact hc
    · have := below (1 - rnd x) (by grind) (by have := some0 hc; grind); grind
  · rw [none0 h, show (1 : Rat) - 0 = 1 by decide +kernel, R.one (by decide)]

end rates

end LRU
