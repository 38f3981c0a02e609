import Verif.Proofs.Ieee
import Verif.Proofs.Cost
import Mathlib.Tactic.NormNum
/-!
# For which normalised scores the cost is defined
-/

namespace Mot

/-- rounding is monotone on all rationals -/
theorem Fmt.round_mono' (f : Fmt) (hf : 1 ≤ f.prec) {x y : ℚ} (h : x ≤ y) :
    f.round x ≤ f.round y := by
  rcases le_or_gt 0 x with hx | hx
  · exact f.round_mono hf hx h
  · rcases le_or_gt 0 y with hy | hy
    · have h1 := f.round_nonneg hy
      have h2 := f.round_nonneg (x := -x) (by linarith)
      rw [f.round_neg] at h2
      linarith
    · have := f.round_mono hf (x := -y) (y := -x) (by linarith) (by linarith)
      rw [f.round_neg, f.round_neg] at this
      linarith

theorem FP.ofRat_cases (f : Fmt) (x : ℚ) :
    FP.ofRat f x = .fin (f.round x) ∨ ∃ b, FP.ofRat f x = .inf b := by
  unfold FP.ofRat
  split
  · exact .inl rfl
  · exact .inr ⟨_, rfl⟩

/-- between 16 and 32 floats are multiples of 2⁻¹⁹ -/
theorem b32_round_16 {y : ℚ} (h1 : 16 ≤ y) (h2 : y < 32) :
    binary32.round y = roundHalfEven (y * 2 ^ 19) / 2 ^ 19 := by
  have hl : Int.log 2 |y| = 4 := by
    rw [abs_of_nonneg (by linarith)]
    apply le_antisymm
    · have : Int.log 2 y < 5 := (Int.lt_zpow_iff_log_lt (by norm_num) (by linarith)).1 (by norm_num; exact h2)
      omega
    · exact (Int.zpow_le_iff_le_log (by norm_num) (by linarith)).1 (by norm_num; exact h1)
  have he : binary32.ulpExp y = -19 := by
    unfold Fmt.ulpExp
    rw [hl]; decide
  unfold Fmt.round
  rw [he]
  have : ((2 : ℚ) ^ (-19 : ℤ)) = 1 / 2 ^ 19 := by norm_num
  rw [this, div_div_eq_mul_div, div_one, mul_one_div]

theorem roundHalfEven_lt {x : ℚ} {n : ℤ} (h : x < n + 1 / 2) : roundHalfEven x ≤ n := by
  have := abs_roundHalfEven_sub_le x
  rw [abs_le] at this
  have : (roundHalfEven x : ℚ) < n + 1 := by linarith
  exact_mod_cast Int.lt_add_one_iff.1 (by exact_mod_cast this)

theorem lt_roundHalfEven {x : ℚ} {n : ℤ} (h : (n : ℚ) + 1 / 2 < x) : n + 1 ≤ roundHalfEven x := by
  have := abs_roundHalfEven_sub_le x
  rw [abs_le] at this
  have : (n : ℚ) < roundHalfEven x := by linarith
  exact_mod_cast this

/-- the cost of a normalised score (a quotient before it is rounded) -/
def costY (y : ℚ) : Outcome ℤ :=
  FP.toInt (FP.mul binary32 (FP.conv binary32 (FP.sub binary64 (.fin 1) (FP.ofRat binary32 y)))
    (.fin 100000000))

theorem costOf_costY {m : ℚ} (hm : m ≠ 0) (s : ℚ) :
    costOf (.fin m) (.fin s) = costY (s / m) := by
  unfold costOf costY
  simp only [FP.div, hm, if_false]

/-- the last step before truncation, if nothing overflows -/
def costP (q : ℚ) : ℚ :=
  binary32.round (binary32.round (binary64.round (1 - q)) * 100000000)

theorem costP_anti {q q' : ℚ} (h : q ≤ q') : costP q' ≤ costP q := by
  unfold costP
  refine Fmt.round_mono' _ (by decide) (mul_le_mul_of_nonneg_right ?_ (by norm_num))
  refine Fmt.round_mono' _ (by decide) (Fmt.round_mono' _ (by decide) ?_)
  linarith

theorem costY_cases (y : ℚ) :
    costY y = FP.toInt (.fin (costP (binary32.round y))) ∨ (costY y).IsUb := by
  unfold costY costP
  rcases FP.ofRat_cases binary32 y with h | ⟨b, h⟩ <;> rw [h]
  · simp only [FP.sub]
    rcases FP.ofRat_cases binary64 (1 - binary32.round y) with h | ⟨b, h⟩ <;> rw [h]
    · simp only [FP.conv]
      rcases FP.ofRat_cases binary32 (binary64.round (1 - binary32.round y)) with h | ⟨b, h⟩ <;>
        rw [h]
      · simp only [FP.mul]
        rcases FP.ofRat_cases binary32
          (binary32.round (binary64.round (1 - binary32.round y)) * 100000000) with h | ⟨b, h⟩ <;>
          rw [h]
        · exact .inl rfl
        · right; simp [FP.toInt]
      · right; simp [FP.mul, FP.toInt]
    · right; simp [FP.conv, FP.mul, FP.toInt]
  · right; simp [FP.sub, FP.conv, FP.mul, FP.toInt]

theorem costP_lo_ub : costP (-10734711 / 2 ^ 19) = 2 ^ 31 := by decide +kernel
theorem costP_lo_ok : costP (-10734710 / 2 ^ 19) = 2 ^ 31 - 256 := by decide +kernel
theorem costP_hi_ub : costP (11783288 / 2 ^ 19) = -2 ^ 31 - 256 := by decide +kernel
theorem costP_hi_ok : costP (11783287 / 2 ^ 19) = -2 ^ 31 := by decide +kernel

theorem costY_ub_lo {y : ℚ} (h : y < -21469421 / 2 ^ 20) : (costY y).IsUb := by
  rcases costY_cases y with hc | hc
  swap
  · exact hc
  have hq : binary32.round y ≤ -10734711 / 2 ^ 19 := by
    have e : binary32.round (-y) = -binary32.round y := binary32.round_neg y
    rcases lt_or_ge (-y) 32 with h' | h'
    · rw [b32_round_16 (by linarith) h'] at e
      have : (10734710 : ℤ) + 1 ≤ roundHalfEven (-y * 2 ^ 19) := lt_roundHalfEven (by
        push_cast; linarith)
      have h2 : (10734711 : ℚ) ≤ roundHalfEven (-y * 2 ^ 19) := by exact_mod_cast this
      have : (10734711 : ℚ) / 2 ^ 19 ≤ roundHalfEven (-y * 2 ^ 19) / 2 ^ 19 := by
        apply div_le_div_of_nonneg_right h2; norm_num
      rw [e] at this
      linarith
    · have := Fmt.round_mono' binary32 (by decide) h'
      have e32 : binary32.round 32 = 32 := by decide +kernel
      rw [e32, e] at this
      linarith
  have hp := costP_anti hq
  rw [costP_lo_ub] at hp
  rw [hc]
  have h0 : (0 : ℚ) ≤ costP (binary32.round y) := by linarith
  simp only [FP.toInt, FP.trunc, h0, if_true]
  rw [if_neg]
  · simp
  · rintro ⟨-, h2⟩
    rw [Int.floor_lt] at h2
    push_cast at h2
    linarith

theorem costY_ub_hi {y : ℚ} (h : 23566575 / 2 ^ 20 ≤ y) : (costY y).IsUb := by
  rcases costY_cases y with hc | hc
  swap
  · exact hc
  have hq : 11783288 / 2 ^ 19 ≤ binary32.round y := by
    have e : binary32.round (23566575 / 2 ^ 20) = 11783288 / 2 ^ 19 := by decide +kernel
    rw [← e]
    exact Fmt.round_mono' _ (by decide) h
  have hp := costP_anti hq
  rw [costP_hi_ub] at hp
  rw [hc]
  have h0 : ¬ (0 : ℚ) ≤ costP (binary32.round y) := by linarith
  simp only [FP.toInt, FP.trunc, h0, if_false]
  rw [if_neg]
  · simp
  · rintro ⟨h2, -⟩
    have : (-(2 : ℤ) ^ 31 : ℤ) - 1 < ⌈costP (binary32.round y)⌉ := by omega
    rw [Int.lt_ceil] at this
    push_cast at this
    linarith

theorem ofRat_of_abs {f : Fmt} {x : ℚ} (h : |f.round x| < 2 ^ 40) (he : 40 ≤ f.emax) :
    FP.ofRat f x = .fin (f.round x) := by
  unfold FP.ofRat
  rw [if_pos]
  have : (2 : ℚ) ^ (40 : ℤ) ≤ (2 : ℚ) ^ f.emax := zpow_le_zpow_right₀ (by norm_num) he
  refine h.trans_le (le_trans (le_of_eq ?_) this)
  norm_cast

theorem costY_ok {y : ℚ} (h1 : -21469421 / 2 ^ 20 ≤ y) (h2 : y < 23566575 / 2 ^ 20) :
    ∃ c, costY y = .ok c := by
  have hlo : -10734710 / 2 ^ 19 ≤ binary32.round y := by
    have e : binary32.round (-21469421 / 2 ^ 20) = -10734710 / 2 ^ 19 := by decide +kernel
    rw [← e]
    exact Fmt.round_mono' _ (by decide) h1
  have hhi : binary32.round y ≤ 11783287 / 2 ^ 19 := by
    rcases lt_or_ge y 16 with h' | h'
    · have := Fmt.round_mono' binary32 (by decide) h'.le
      have e16 : binary32.round 16 = 16 := by decide +kernel
      rw [e16] at this
      linarith
    · rw [b32_round_16 h' (by linarith)]
      apply div_le_div_of_nonneg_right _ (by norm_num)
      have : roundHalfEven (y * 2 ^ 19) ≤ (11783287 : ℤ) := roundHalfEven_lt (by
        push_cast; linarith)
      exact_mod_cast this
  have hp1 := costP_anti hlo
  have hp2 := costP_anti hhi
  rw [costP_lo_ok] at hp1
  rw [costP_hi_ok] at hp2
  have hd1 := Fmt.round_mono' binary64 (by decide) (x := 1 - binary32.round y) (y := 32)
    (by linarith)
  have hd2 := Fmt.round_mono' binary64 (by decide) (x := -32) (y := 1 - binary32.round y)
    (by linarith)
  have e1 : binary64.round 32 = 32 := by decide +kernel
  have e2 : binary64.round (-32) = -32 := by decide +kernel
  rw [e1] at hd1
  rw [e2] at hd2
  have hf1 := Fmt.round_mono' binary32 (by decide) hd1
  have hf2 := Fmt.round_mono' binary32 (by decide) hd2
  have e3 : binary32.round 32 = 32 := by decide +kernel
  have e4 : binary32.round (-32) = -32 := by decide +kernel
  rw [e3] at hf1
  rw [e4] at hf2
  have hY : costY y = FP.toInt (.fin (costP (binary32.round y))) := by
    unfold costY
    rw [ofRat_of_abs (by rw [abs_lt]; constructor <;> linarith) (by decide)]
    simp only [FP.sub]
    rw [ofRat_of_abs (by rw [abs_lt]; constructor <;> linarith) (by decide)]
    simp only [FP.conv]
    rw [ofRat_of_abs (by rw [abs_lt]; constructor <;> linarith) (by decide)]
    simp only [FP.mul]
    rw [ofRat_of_abs (by
      change |costP (binary32.round y)| < _
      rw [abs_lt]; constructor <;> linarith) (by decide)]
    rfl
  rw [hY]
  simp only [FP.toInt]
  rw [if_pos]
  · exact ⟨_, rfl⟩
  · unfold FP.trunc
    split
    · next h0 =>
      constructor
      · have := Int.floor_nonneg.2 h0
        omega
      · rw [Int.floor_lt]; push_cast; linarith
    · next h0 =>
      constructor
      · have : (-(2 : ℤ) ^ 31 - 1 : ℤ) < ⌈costP (binary32.round y)⌉ := by
          rw [Int.lt_ceil]; push_cast; linarith
        omega
      · have : ⌈costP (binary32.round y)⌉ ≤ 0 := Int.ceil_le.2 (by push_cast; linarith)
        omega

theorem costY_ub_iff (y : ℚ) :
    (costY y).IsUb ↔ y < -21469421 / 2 ^ 20 ∨ 23566575 / 2 ^ 20 ≤ y := by
  constructor
  · intro h
    by_contra hc
    push Not at hc
    obtain ⟨c, h'⟩ := costY_ok hc.1 hc.2
    rw [h'] at h
    simp at h
  · rintro (h | h)
    · exact costY_ub_lo h
    · exact costY_ub_hi h

end Mot
