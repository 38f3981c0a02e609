import Verif.Proofs.FloatCtra
/-!
# Lemmas on process noise in floating-point arithmetic
-/

namespace Mot

open Spec

theorem mul_self_fin {dt : ℚ} (hdt : |dt| ≤ 2 ^ 20) :
    ∃ d : ℚ, FP.mul binary64 (.fin dt) (.fin dt) = .fin d ∧ |d| ≤ 2 ^ 41 ∧
      |(d : ℝ) - dt * dt| ≤ (dt * dt : ℝ) / 2 ^ 53 + 1 / 2 ^ 200 ∧ (dt * dt : ℝ) ≤ 2 ^ 40 := by
  have h : |dt * dt| ≤ 2 ^ 40 := by
    rw [abs_mul]
    exact (mul_le_mul hdt hdt (abs_nonneg _) (by norm_num)).trans (by norm_num)
  refine ⟨_, b64_ofRat (h.trans (by norm_num)),
    (abs_b64_le h (by norm_num)).trans (by norm_num), ?_, ?_⟩
  · have c := b64_cast (dt * dt)
    push_cast at c
    rwa [abs_of_nonneg (mul_self_nonneg (dt : ℝ))] at c
  · have h' : |(dt * dt : ℝ)| ≤ 2 ^ 40 := by exact_mod_cast h
    exact (le_abs_self _).trans h'

/-- half of a number of the size of noise -/
theorem half_fin {n : ℚ} (hn : |n| ≤ 2 ^ 40) :
    ∃ h : ℚ, FP.mul binary64 (.fin (1 / 2)) (.fin n) = .fin h ∧ |h| ≤ 2 ^ 41 ∧
      |(h : ℝ) - n / 2| ≤ |(n / 2 : ℝ)| / 2 ^ 53 + 1 / 2 ^ 200 := by
  have h : |1 / 2 * n| ≤ 2 ^ 40 := by
    rw [abs_mul, abs_of_pos (by norm_num)]
    norm_num at *
    linarith
  refine ⟨_, b64_ofRat (h.trans (by norm_num)),
    (abs_b64_le h (by norm_num)).trans (by norm_num), ?_⟩
  have c := b64_cast (1 / 2 * n)
  push_cast at c
  rwa [show (1 / 2 * n : ℝ) = n / 2 by ring] at c

/-- what noise adds to a coordinate -/
theorem noise_fin {n dt c : ℚ} {C : ℝ} (hn : |n| ≤ 2 ^ 40) (hdt : |dt| ≤ 2 ^ 20)
    (hc : |(c : ℝ) - C| ≤ 1 / 2 ^ 52) (hC : |C| ≤ 1) :
    ∃ r : ℚ, FP.mul binary64 (FP.mul binary64 (FP.mul binary64 (.fin (1 / 2)) (.fin n)) (.fin c))
        (FP.mul binary64 (.fin dt) (.fin dt)) = .fin r ∧
      Approx ((|(n * dt * dt : ℝ)| + 1 / 2 ^ 98) / 2 ^ 53) r (n / 2 * C * (dt * dt)) 7 1 := by
  obtain ⟨d, ed, hd, ad, hdd⟩ := mul_self_fin hdt
  obtain ⟨h, eh, hh, ah⟩ := half_fin hn
  have hn' : |(n : ℝ)| ≤ 2 ^ 40 := by exact_mod_cast hn
  have hd0 : (0 : ℝ) ≤ dt * dt := mul_self_nonneg _
  -- the scale of the first product
  set N : ℝ := |(n / 2 : ℝ)| + 1 / 2 ^ 140 with hN
  have n0 := abs_nonneg (n / 2 : ℝ)
  have hn2 : |(n / 2 : ℝ)| ≤ 2 ^ 39 := by
    rw [abs_div, abs_two]
    norm_num at *
    linarith
  have hN0 : 1 / 2 ^ 140 ≤ N := by linarith
  have hN1 : N ≤ 2 ^ 40 := by
    rw [hN]
    norm_num at *
    linarith
  have hA1 : 1 / 2 ^ 193 ≤ N / 2 ^ 53 := by
    clear_value N
    norm_num at *
    linarith
  have hA2 : N / 2 ^ 53 ≤ 2 ^ 160 := by
    clear_value N
    norm_num at *
    linarith
  have k1 : Approx (N / 2 ^ 53) h (n / 2) (101 / 100) 1 := by
    constructor
    · refine ah.trans ?_
      clear ah ad
      rw [hN]
      generalize |(n / 2 : ℝ)| = z at *
      norm_num at *
      linarith
    · rw [one_mul, mul_div_cancel₀ _ (by positivity)]
      have : (0 : ℝ) < 1 / 2 ^ 140 := by positivity
      linarith
  obtain ⟨r, er, ar⟩ := k1.mul_fin hA1 hA2 (by norm_num) (by norm_num) (h := 2) (by norm_num)
    (by norm_num) (hc.trans (by norm_num)) hC (by norm_num) (by norm_num)
  -- the scale of the whole
  set M : ℝ := |(n * dt * dt : ℝ)| + 1 / 2 ^ 98 with hM
  have hND : N * (dt * dt) ≤ M := by
    rw [hN, hM, add_mul, ← abs_of_nonneg hd0, ← abs_mul, abs_of_nonneg hd0,
      show (n / 2 * (dt * dt) : ℝ) = n * dt * dt / 2 by ring, abs_div, abs_two]
    have := abs_nonneg (n * dt * dt : ℝ)
    clear_value N M
    norm_num at *
    linarith
  have hM1 : |(n * dt * dt : ℝ)| ≤ 2 ^ 80 := by
    rw [show (n * dt * dt : ℝ) = n * (dt * dt) by ring, abs_mul, abs_of_nonneg hd0]
    exact (mul_le_mul hn' hdd hd0 (by norm_num)).trans (by norm_num)
  have hMhi : M ≤ 2 ^ 81 := by
    rw [hM]
    norm_num at *
    linarith
  have hMlo : 1 / 2 ^ 98 ≤ M := by
    have := abs_nonneg (n * dt * dt : ℝ)
    linarith
  have hB1 : 1 / 2 ^ 193 ≤ M / 2 ^ 53 := by
    clear_value N M
    norm_num at *
    linarith
  have hB2 : M / 2 ^ 53 ≤ 2 ^ 160 := by
    clear_value N M
    norm_num at *
    linarith
  have hr : |(r : ℝ)| ≤ 101 / 100 * N := by
    have h1 := abs_add_le (r - n / 2 * C) (n / 2 * C)
    rw [sub_add_cancel] at h1
    have h2 := ar.err
    have h3 := ar.size
    rw [one_mul, mul_div_cancel₀ _ (by positivity)] at h3
    clear_value N M
    generalize |(r : ℝ) - n / 2 * C| = z1 at *
    generalize |(n / 2 * C : ℝ)| = z2 at *
    generalize |(r : ℝ)| = z3 at *
    clear ad ah er eh ed
    norm_num at *
    linarith
  have k2 : Approx (M / 2 ^ 53) (r * d) (n / 2 * C * (dt * dt)) (11 / 2) 1 := by
    constructor
    · push_cast
      have h1 := abs_add_le ((r - n / 2 * C) * (dt * dt)) (r * (d - dt * dt))
      rw [show ((r : ℝ) - n / 2 * C) * (dt * dt) + r * (d - dt * dt) =
        r * d - n / 2 * C * (dt * dt) by ring, abs_mul _ (dt * dt : ℝ), abs_mul (r : ℝ),
        abs_of_nonneg hd0] at h1
      have h2 := mul_le_mul_of_nonneg_right ar.err hd0
      have h3 : |(r : ℝ)| * |(d : ℝ) - dt * dt| ≤
          101 / 100 * N * ((dt * dt : ℝ) / 2 ^ 53 + 1 / 2 ^ 200) :=
        mul_le_mul hr ad (abs_nonneg _) (by positivity)
      have h4 : 101 / 100 * N * ((dt * dt : ℝ) / 2 ^ 53 + 1 / 2 ^ 200) =
        101 / 100 / 2 ^ 53 * (N * (dt * dt)) + 101 / 100 / 2 ^ 200 * N := by ring
      have h5 : (101 / 100 + 1 * 2 + 1 + 1 / 50) * (N / 2 ^ 53) * (dt * dt) =
        403 / 100 / 2 ^ 53 * (N * (dt * dt)) := by ring
      rw [h4] at h3
      rw [h5] at h2
      refine h1.trans ((add_le_add h2 h3).trans ?_)
      clear h1 h2 h3 h4 h5 hr ar er ed eh ah ad k1 hA1 hA2
      clear_value N M
      generalize N * (dt * dt : ℝ) = z1 at *
      norm_num at *
      linarith
    · rw [one_mul, mul_div_cancel₀ _ (by positivity), abs_mul _ (dt * dt : ℝ), abs_of_nonneg hd0,
        abs_mul]
      have : |(n / 2 : ℝ)| * |C| ≤ N :=
        (mul_le_of_le_one_right n0 hC).trans (by
          rw [hN]
          have : (0 : ℝ) < 1 / 2 ^ 140 := by positivity
          linarith)
      exact (mul_le_mul_of_nonneg_right this hd0).trans hND
  obtain ⟨q, eq, aq⟩ := k2.fin hB1 hB2 (by norm_num) (by norm_num)
  refine ⟨q, ?_, aq.mono (le_trans (by positivity) hB1) (by norm_num) le_rfl⟩
  rw [eh, er, ed]
  exact eq

/-- adding what noise gives to a number -/
theorem add_noise_fin {x r : ℚ} {M R e : ℝ} (hx : |x| ≤ 2 ^ 200) (hMlo : 1 / 2 ^ 100 ≤ M)
    (hMhi : M ≤ 2 ^ 81) (he' : e ≤ 10) (hr : Approx (M / 2 ^ 53) r R e 1) :
    ∃ X : ℚ, FP.add binary64 (.fin x) (.fin r) = .fin X ∧
      |(X : ℝ) - (x + R)| ≤ |(x : ℝ)| / 2 ^ 53 + (e + 2) / 2 ^ 53 * M := by
  have hM0 : 0 < M := lt_of_lt_of_le (by positivity) hMlo
  have h1 := hr.err
  have h2 := hr.size
  rw [one_mul, mul_div_cancel₀ _ (by positivity)] at h2
  have h3 := abs_add_le (r - R) R
  rw [sub_add_cancel] at h3
  have h4 : e * (M / 2 ^ 53) ≤ 10 * (M / 2 ^ 53) :=
    mul_le_mul_of_nonneg_right he' (by positivity)
  have h5 : |(r : ℝ)| ≤ 101 / 100 * M := by
    generalize |(r : ℝ) - R| = z1 at *
    generalize |R| = z2 at *
    generalize |(r : ℝ)| = z3 at *
    generalize e * (M / 2 ^ 53) = z4 at *
    norm_num at *
    linarith
  have hrb : |r| ≤ 2 ^ 210 := by
    have : |(r : ℝ)| ≤ 2 ^ 210 := h5.trans (by norm_num at *; linarith)
    exact_mod_cast this
  refine ⟨_, (Mot.add_fin hx hrb).1, ?_⟩
  have h7 := sum_err (x := (x : ℝ)) (X := (binary64.round (x + r) : ℚ)) (r := r) (R := R)
    (A := e * (M / 2 ^ 53)) (B := 101 / 100 * M) (ε := 0) (ε' := 0)
    (by simpa using b64_cast (x + r)) (by rw [add_zero]; exact h1) (by rw [add_zero]; exact h5)
  refine h7.trans ?_
  rw [show (e + 2) / 2 ^ 53 * M = e * (M / 2 ^ 53) + 2 / 2 ^ 53 * M by ring]
  clear h1 h2 h3 h4 h5 h7 hr
  generalize e * (M / 2 ^ 53) = z1 at *
  norm_num at *
  linarith

/-- noise times time step -/
theorem rate_fin {n dt : ℚ} (hn : |n| ≤ 2 ^ 40) (hdt : |dt| ≤ 2 ^ 20) :
    ∃ r : ℚ, FP.mul binary64 (.fin n) (.fin dt) = .fin r ∧
      Approx ((|(n * dt : ℝ)| + 1 / 2 ^ 98) / 2 ^ 53) r (n * dt) (11 / 10) 1 := by
  have h : |n * dt| ≤ 2 ^ 60 := by
    rw [abs_mul]
    exact (mul_le_mul hn hdt (abs_nonneg _) (by norm_num)).trans (by norm_num)
  have h' : |(n * dt : ℝ)| ≤ 2 ^ 60 := by exact_mod_cast h
  have h0 := abs_nonneg (n * dt : ℝ)
  have k : Approx ((|(n * dt : ℝ)| + 1 / 2 ^ 98) / 2 ^ 53) (n * dt) (n * dt) 0 1 := by
    constructor
    · push_cast; simp
    · rw [one_mul, mul_div_cancel₀ _ (by positivity)]
      have : (0 : ℝ) < 1 / 2 ^ 98 := by positivity
      linarith
  have hA : 1 / 2 ^ 193 ≤ (|(n * dt : ℝ)| + 1 / 2 ^ 98) / 2 ^ 53 := by
    generalize |(n * dt : ℝ)| = z at *
    clear h k hn hdt
    norm_num at *
    linarith
  obtain ⟨r, er, ar⟩ := k.fin hA
    (by generalize |(n * dt : ℝ)| = z at *; clear h k hn hdt; norm_num at *; linarith)
    (by norm_num) (by norm_num)
  exact ⟨r, er, ar.mono (le_trans (by positivity) hA) (by norm_num) le_rfl⟩

end Mot
