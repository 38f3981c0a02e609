import Verif.Model.Matching
import Verif.Proofs.Float
/-! # The cost of one score in floating-point arithmetic -/

namespace Mot

namespace Fmt

theorem round_one (f : Fmt) (h1 : 1 ≤ f.prec) (h2 : f.emin ≤ 0) : f.round 1 = 1 := by
  have := f.round_exact (m := 1) (j := 0) (by
    rw [abs_one]; exact one_lt_pow₀ (by norm_num) (by omega)) h2
  simpa using this

theorem round_le_one (f : Fmt) (h1 : 1 ≤ f.prec) (h2 : f.emin ≤ 0) {x : ℚ} (hx : 0 ≤ x)
    (h : x ≤ 1) : f.round x ≤ 1 := by
  have := f.round_mono h1 hx h
  rwa [f.round_one h1 h2] at this

end Fmt

theorem b32_round_1e8 : binary32.round 100000000 = 100000000 := by
  have h := binary32.round_exact (m := 390625) (j := 8) (by decide) (by decide)
  norm_num at h
  exact h

/-- `costOf` on rationals -/
def costQ (m s : ℚ) : ℤ :=
  ⌊binary32.round (binary32.round (binary64.round (1 - binary32.round (s / m))) * 100000000)⌋

section
variable {m s : ℚ}

/-- intermediate values of the computation -/
theorem cost_steps (hm : 0 < m) (hs : 0 ≤ s) (hsm : s ≤ m) :
    let q := binary32.round (s / m)
    let d := binary64.round (1 - q)
    let f := binary32.round d
    let p := binary32.round (f * 100000000)
    (0 ≤ q ∧ q ≤ 1) ∧ (0 ≤ d ∧ d ≤ 1) ∧ (0 ≤ f ∧ f ≤ 1) ∧ (0 ≤ p ∧ p ≤ 100000000) := by
  intro q d f p
  have ha0 : 0 ≤ s / m := div_nonneg hs hm.le
  have ha1 : s / m ≤ 1 := (div_le_one hm).2 hsm
  have hq0 : 0 ≤ q := Fmt.round_nonneg _ ha0
  have hq1 : q ≤ 1 := Fmt.round_le_one _ (by decide) (by decide) ha0 ha1
  have hd0 : 0 ≤ d := Fmt.round_nonneg _ (by linarith)
  have hd1 : d ≤ 1 := Fmt.round_le_one _ (by decide) (by decide) (by linarith) (by linarith)
  have hf0 : 0 ≤ f := Fmt.round_nonneg _ hd0
  have hf1 : f ≤ 1 := Fmt.round_le_one _ (by decide) (by decide) hd0 hd1
  have hp0 : 0 ≤ p := Fmt.round_nonneg _ (by linarith)
  have hp1 : p ≤ 100000000 := by
    have := Fmt.round_mono binary32 (by decide) (x := f * 100000000) (y := 100000000)
      (by linarith) (by linarith)
    rwa [b32_round_1e8] at this
  exact ⟨⟨hq0, hq1⟩, ⟨hd0, hd1⟩, ⟨hf0, hf1⟩, ⟨hp0, hp1⟩⟩

theorem ofRat_of_small {f : Fmt} {x : ℚ} (h0 : 0 ≤ f.round x) (h1 : f.round x ≤ 100000000)
    (he : 27 ≤ f.emax) : FP.ofRat f x = .fin (f.round x) := by
  unfold FP.ofRat
  rw [if_pos]
  rw [abs_of_nonneg h0]
  have : (2 : ℚ) ^ (27 : ℤ) ≤ (2 : ℚ) ^ f.emax := zpow_le_zpow_right₀ (by norm_num) he
  have h27 : (2 : ℚ) ^ (27 : ℤ) = 134217728 := by norm_num
  linarith

theorem costQ_range (hm : 0 < m) (hs : 0 ≤ s) (hsm : s ≤ m) :
    0 ≤ costQ m s ∧ costQ m s ≤ 100000000 := by
  obtain ⟨_, _, _, hp0, hp1⟩ := cost_steps hm hs hsm
  constructor
  · exact Int.floor_nonneg.2 hp0
  · unfold costQ
    have := Int.floor_le_floor hp1
    have h8 : ⌊(100000000 : ℚ)⌋ = 100000000 := by
      rw [show (100000000 : ℚ) = ((100000000 : ℤ) : ℚ) by norm_num, Int.floor_intCast]
    omega

theorem costOf_eq (hm : 0 < m) (hs : 0 ≤ s) (hsm : s ≤ m) :
    costOf (.fin m) (.fin s) = .ok (costQ m s) := by
  obtain ⟨⟨hq0, hq1⟩, ⟨hd0, hd1⟩, ⟨hf0, hf1⟩, ⟨hp0, hp1⟩⟩ := cost_steps hm hs hsm
  unfold costOf
  simp only [FP.div, hm.ne', if_false]
  rw [ofRat_of_small hq0 (by linarith) (by decide)]
  simp only [FP.sub]
  rw [ofRat_of_small hd0 (by linarith) (by decide)]
  simp only [FP.conv]
  rw [ofRat_of_small hf0 (by linarith) (by decide)]
  simp only [FP.mul]
  rw [ofRat_of_small hp0 (by linarith) (by decide)]
  simp only [FP.toInt, FP.trunc, hp0, if_true]
  have hr := costQ_range hm hs hsm
  rw [if_pos]
  · rfl
  · have : costQ m s = ⌊binary32.round
      (binary32.round (binary64.round (1 - binary32.round (s / m))) * 100000000)⌋ := rfl
    rw [← this]
    omega

theorem costQ_anti {s' : ℚ} (hm : 0 < m) (hs : 0 ≤ s) (hss : s ≤ s') (hsm : s' ≤ m) :
    costQ m s' ≤ costQ m s := by
  have hs' := hs.trans hss
  obtain ⟨⟨hq0, hq1⟩, ⟨hd0, hd1⟩, ⟨hf0, hf1⟩, ⟨hp0, hp1⟩⟩ := cost_steps hm hs (hss.trans hsm)
  obtain ⟨⟨hq0', hq1'⟩, ⟨hd0', hd1'⟩, ⟨hf0', hf1'⟩, ⟨hp0', hp1'⟩⟩ := cost_steps hm hs' hsm
  have h1 : binary32.round (s / m) ≤ binary32.round (s' / m) :=
    Fmt.round_mono _ (by decide) (div_nonneg hs hm.le) (div_le_div_of_nonneg_right hss hm.le)
  have h2 : binary64.round (1 - binary32.round (s' / m)) ≤ binary64.round (1 - binary32.round (s / m)) :=
    Fmt.round_mono _ (by decide) (by linarith) (by linarith)
  have h3 := Fmt.round_mono binary32 (by decide) hd0' h2
  have h4 := Fmt.round_mono binary32 (by decide)
    (x := binary32.round (binary64.round (1 - binary32.round (s' / m))) * 100000000)
    (y := binary32.round (binary64.round (1 - binary32.round (s / m))) * 100000000)
    (by linarith) (by linarith)
  exact Int.floor_le_floor h4

theorem costQ_self (hm : 0 < m) : costQ m m = 0 := by
  unfold costQ
  rw [div_self hm.ne', Fmt.round_one _ (by decide) (by decide), sub_self, Fmt.round_zero,
    Fmt.round_zero, zero_mul, Fmt.round_zero, Int.floor_zero]

theorem costQ_zero : costQ m 0 = 100000000 := by
  unfold costQ
  rw [zero_div, Fmt.round_zero, sub_zero, Fmt.round_one _ (by decide) (by decide),
    Fmt.round_one _ (by decide) (by decide), one_mul, b32_round_1e8,
    show (100000000 : ℚ) = ((100000000 : ℤ) : ℚ) by norm_num, Int.floor_intCast]

/-- 1 - 2^-25 rounds to 1 in binary32 (tie to even) -/
theorem b32_tie : binary32.round (1 - 1 / 2 ^ 25) = 1 := by decide +kernel

/-- scores up to max * 2^-25 all get the largest cost -/
theorem costQ_collapse (hm : 0 < m) (hs : 0 ≤ s) (hsm : s ≤ m / 2 ^ 25) :
    costQ m s = 100000000 := by
  have h25 : m / 2 ^ 25 ≤ m := by
    rw [div_le_iff₀ (by norm_num)]; nlinarith
  obtain ⟨⟨hq0, hq1⟩, ⟨hd0, hd1⟩, ⟨hf0, hf1⟩, ⟨hp0, hp1⟩⟩ := cost_steps hm hs (hsm.trans h25)
  have e25 : binary32.round (1 / 2 ^ 25) = 1 / 2 ^ 25 := by decide +kernel
  have e25' : binary64.round (1 - 1 / 2 ^ 25) = 1 - 1 / 2 ^ 25 := by decide +kernel
  have h1 : binary32.round (s / m) ≤ 1 / 2 ^ 25 := by
    have := Fmt.round_mono binary32 (by decide) (x := s / m) (y := 1 / 2 ^ 25)
      (div_nonneg hs hm.le) (by
        rw [div_le_iff₀ hm]; linarith)
    rwa [e25] at this
  have h2 : 1 - 1 / 2 ^ 25 ≤ binary64.round (1 - binary32.round (s / m)) := by
    have := Fmt.round_mono binary64 (by decide) (x := 1 - 1 / 2 ^ 25)
      (y := 1 - binary32.round (s / m)) (by norm_num) (by linarith)
    rwa [e25'] at this
  have h3 : 1 ≤ binary32.round (binary64.round (1 - binary32.round (s / m))) := by
    have := Fmt.round_mono binary32 (by decide) (by norm_num) h2
    rwa [b32_tie] at this
  have h4 : binary32.round (binary64.round (1 - binary32.round (s / m))) = 1 :=
    le_antisymm hf1 h3
  unfold costQ
  rw [h4, one_mul, b32_round_1e8,
    show (100000000 : ℚ) = ((100000000 : ℤ) : ℚ) by norm_num, Int.floor_intCast]

/-- rounding error of a number in [0, 1] -/
theorem round_err_unit (f : Fmt) (h1 : 1 ≤ f.prec) (h2 : f.emin ≤ -f.prec) {x : ℚ} (hx : 0 ≤ x)
    (hx1 : x ≤ 1) : |f.round x - x| ≤ (2 : ℚ) ^ (-(f.prec : ℤ)) / 2 := by
  have hpos := zpow_pos (show (0 : ℚ) < 2 by norm_num) (-(f.prec : ℤ))
  rcases hx.eq_or_lt with rfl | hx0
  · rw [Fmt.round_zero, sub_zero, abs_zero]; linarith
  rcases hx1.eq_or_lt with rfl | hlt
  · rw [Fmt.round_one _ h1 (by omega), sub_self, abs_zero]; linarith
  · have := f.abs_round_sub_le_of_lt (x := x) (e := 0) (by rw [abs_of_pos hx0]; simpa using hlt)
      hx0.ne' (by omega)
    simpa using this

/-- the cost is the scaled complement of the normalised score up to 11 units -/
theorem costQ_err (hm : 0 < m) (hs : 0 ≤ s) (hsm : s ≤ m) :
    |(costQ m s : ℚ) - 100000000 * (1 - s / m)| ≤ 11 := by
  obtain ⟨⟨hq0, hq1⟩, ⟨hd0, hd1⟩, ⟨hf0, hf1⟩, ⟨hp0, hp1⟩⟩ := cost_steps hm hs hsm
  set q := binary32.round (s / m) with hq
  set d := binary64.round (1 - q) with hd
  set f := binary32.round d with hf
  set p := binary32.round (f * 100000000) with hp
  have e1 : |q - s / m| ≤ 1 / 2 ^ 25 := by
    have := round_err_unit binary32 (by decide) (by decide) (div_nonneg hs hm.le)
      ((div_le_one hm).2 hsm)
    refine this.trans (le_of_eq ?_)
    show (2 : ℚ) ^ (-24 : ℤ) / 2 = _
    norm_num
  have e2 : |d - (1 - q)| ≤ 1 / 2 ^ 54 := by
    have := round_err_unit binary64 (by decide) (by decide) (x := 1 - q) (by linarith)
      (by linarith)
    refine this.trans (le_of_eq ?_)
    show (2 : ℚ) ^ (-53 : ℤ) / 2 = _
    norm_num
  have e3 : |f - d| ≤ 1 / 2 ^ 25 := by
    have := round_err_unit binary32 (by decide) (by decide) hd0 hd1
    refine this.trans (le_of_eq ?_)
    show (2 : ℚ) ^ (-24 : ℤ) / 2 = _
    norm_num
  have e4 : |p - f * 100000000| ≤ 4 := by
    rcases eq_or_ne (f * 100000000) 0 with h0 | h0
    · rw [hp, h0, Fmt.round_zero]; norm_num
    · have := binary32.abs_round_sub_le_of_lt (x := f * 100000000) (e := 27)
        (by rw [abs_of_nonneg (by linarith)]
            have : (2 : ℚ) ^ (27 : ℤ) = 134217728 := by norm_num
            linarith) h0 (by decide)
      refine this.trans (le_of_eq ?_)
      show (2 : ℚ) ^ (27 - 24 : ℤ) / 2 = _
      norm_num
  have e5 : (costQ m s : ℚ) ≤ p := Int.floor_le p
  have e6 : p < (costQ m s : ℚ) + 1 := Int.lt_floor_add_one p
  rw [abs_le] at *
  norm_num at e1 e2 e3 e4
  constructor <;> linarith

end

end Mot
