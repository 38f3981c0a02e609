import Verif.Proofs.LinearPart
/-!
# The predicted heading when some sigma points lie beyond the cut
-/

namespace Mot

open Matrix Spec

theorem yawCut_lit : yawCut = 3.14159265359 := by unfold yawCut; norm_num

theorem cut_low {ψ d v : ℝ} (h0 : 0 ≤ ψ) (h1 : ψ ≤ yawCut) (hd : |d| ≤ 3)
    (hv : SameDir v (ψ + d)) (hr : 0 ≤ v ∧ v < 2 * Real.pi) :
    ∃ e, 0 ≤ e ∧ e ≤ 2 * (yawCut - Real.pi) ∧
      rotateHeading v = ψ + d - (if yawCut < ψ + d then 2 * Real.pi else 0) - e := by
  obtain ⟨c1, c2⟩ := yawCut_bounds
  norm_num at c2
  have hp := Real.pi_gt_d2
  have hp' := Real.pi_lt_d2
  obtain ⟨d1, d2⟩ := abs_le.1 hd
  unfold rotateHeading
  rcases lt_or_ge (ψ + d) 0 with hn | hn
  · have e : v = ψ + d + 2 * Real.pi := by
      refine SameDir.eq_of_range (hv.trans ⟨-1, by push_cast; ring⟩) hr ⟨by linarith, by linarith⟩
    refine ⟨2 * (yawCut - Real.pi), by linarith, le_rfl, ?_⟩
    rw [if_pos (by rw [e]; linarith), if_neg (by linarith), e]
    ring
  · have e : v = ψ + d := hv.eq_of_range hr ⟨hn, by linarith⟩
    by_cases hc : yawCut < ψ + d
    · refine ⟨2 * (yawCut - Real.pi), by linarith, le_rfl, ?_⟩
      rw [if_pos (by rw [e]; exact hc), if_pos hc, e]
      ring
    · refine ⟨0, le_rfl, by linarith, ?_⟩
      rw [if_neg (by rw [e]; exact hc), if_neg hc, e]
      ring

theorem cut_high {ψ d v : ℝ} (h0 : yawCut < ψ) (h1 : ψ < 2 * Real.pi) (hd : |d| ≤ 3)
    (hv : SameDir v (ψ + d)) (hr : 0 ≤ v ∧ v < 2 * Real.pi) :
    ∃ e, 0 ≤ e ∧ e ≤ 2 * (yawCut - Real.pi) ∧
      rotateHeading v = ψ + d - 2 * Real.pi + (if ψ + d ≤ yawCut then 2 * Real.pi else 0) - e := by
  obtain ⟨c1, c2⟩ := yawCut_bounds
  norm_num at c2
  have hp := Real.pi_gt_d2
  have hp' := Real.pi_lt_d2
  obtain ⟨d1, d2⟩ := abs_le.1 hd
  unfold rotateHeading
  rcases lt_or_ge (ψ + d) (2 * Real.pi) with hn | hn
  · have e : v = ψ + d := hv.eq_of_range hr ⟨by linarith, hn⟩
    by_cases hc : ψ + d ≤ yawCut
    · refine ⟨0, le_rfl, by linarith, ?_⟩
      rw [if_neg (by rw [e]; linarith), if_pos hc, e]
      ring
    · refine ⟨2 * (yawCut - Real.pi), by linarith, le_rfl, ?_⟩
      rw [if_pos (by rw [e]; linarith), if_neg hc, e]
      ring
  · have e : v = ψ + d - 2 * Real.pi := by
      refine SameDir.eq_of_range (hv.trans ⟨1, by push_cast; ring⟩) hr ⟨by linarith, by linarith⟩
    refine ⟨0, le_rfl, by linarith, ?_⟩
    rw [if_neg (by rw [e]; linarith), if_neg (by linarith), e]
    ring

theorem pair_low {ψ d v w : ℝ} (h0 : 0 ≤ ψ) (h1 : ψ ≤ yawCut) (hd : |d| ≤ 3)
    (hv : SameDir v (ψ + d)) (hr : 0 ≤ v ∧ v < 2 * Real.pi)
    (hw : SameDir w (ψ - d)) (hs : 0 ≤ w ∧ w < 2 * Real.pi) :
    ∃ e, 0 ≤ e ∧ e ≤ 4 * (yawCut - Real.pi) ∧
      rotateHeading v + rotateHeading w =
        2 * ψ - (if yawCut < ψ + |d| then 2 * Real.pi else 0) - e := by
  obtain ⟨e, e0, e1, e2⟩ := cut_low h0 h1 hd hv hr
  obtain ⟨f, f0, f1, f2⟩ := cut_low h0 h1 (d := -d) (by rwa [abs_neg])
    (by rw [← sub_eq_add_neg]; exact hw) hs
  refine ⟨e + f, by linarith, by linarith, ?_⟩
  rw [e2, f2]
  rcases le_total 0 d with hd0 | hd0
  · rw [abs_of_nonneg hd0, if_neg (show ¬ yawCut < ψ + -d by linarith)]
    ring
  · rw [abs_of_nonpos hd0, if_neg (show ¬ yawCut < ψ + d by linarith)]
    ring

theorem pair_high {ψ d v w : ℝ} (h0 : yawCut < ψ) (h1 : ψ < 2 * Real.pi) (hd : |d| ≤ 3)
    (hv : SameDir v (ψ + d)) (hr : 0 ≤ v ∧ v < 2 * Real.pi)
    (hw : SameDir w (ψ - d)) (hs : 0 ≤ w ∧ w < 2 * Real.pi) :
    ∃ e, 0 ≤ e ∧ e ≤ 4 * (yawCut - Real.pi) ∧
      rotateHeading v + rotateHeading w =
        2 * ψ - 4 * Real.pi + (if ψ - |d| ≤ yawCut then 2 * Real.pi else 0) - e := by
  obtain ⟨e, e0, e1, e2⟩ := cut_high h0 h1 hd hv hr
  obtain ⟨f, f0, f1, f2⟩ := cut_high h0 h1 (d := -d) (by rwa [abs_neg])
    (by rw [← sub_eq_add_neg]; exact hw) hs
  refine ⟨e + f, by linarith, by linarith, ?_⟩
  rw [e2, f2]
  rcases le_total 0 d with hd0 | hd0
  · rw [abs_of_nonneg hd0, if_neg (show ¬ ψ + d ≤ yawCut by linarith), ← sub_eq_add_neg ψ d]
    ring
  · rw [abs_of_nonpos hd0, if_neg (show ¬ ψ + -d ≤ yawCut by linarith), sub_neg_eq_add]
    ring

/-- weighted mean of the headings of the points, for a heading up to the cut -/
theorem mean_low {n : ℕ} {ψ N : ℝ} (hn : 0 < n) (hN : n ≤ N) (h0 : 0 ≤ ψ) (h1 : ψ ≤ yawCut)
    {d v w : Fin n → ℝ} (hd : ∀ j, |d j| ≤ 3)
    (hv : ∀ j, SameDir (v j) (ψ + d j)) (hr : ∀ j, 0 ≤ v j ∧ v j < 2 * Real.pi)
    (hw : ∀ j, SameDir (w j) (ψ - d j)) (hs : ∀ j, 0 ≤ w j ∧ w j < 2 * Real.pi)
    {u : ℝ} (hu : SameDir u ψ) (hur : 0 ≤ u ∧ u < 2 * Real.pi) :
    |(N - n) / N * rotateHeading u +
        1 / (2 * N) * ∑ j, (rotateHeading (v j) + rotateHeading (w j)) -
      (ψ - Real.pi * crossings ψ d / N)| ≤ 2 / 10 ^ 12 := by
  obtain ⟨c1, c2⟩ := yawCut_bounds
  have hn' : (0 : ℝ) < n := by exact_mod_cast hn
  have hN' : 0 < N := by linarith
  obtain ⟨f, f0, f1, f2⟩ := cut_low h0 h1 (d := 0) (by norm_num) (by rw [add_zero]; exact hu) hur
  rw [if_neg (by linarith)] at f2
  choose e e0 e1 e2 using fun j => pair_low h0 h1 (hd j) (hv j) (hr j) (hw j) (hs j)
  have hsum : ∑ j, (rotateHeading (v j) + rotateHeading (w j)) =
      2 * n * ψ - 2 * Real.pi * crossings ψ d - ∑ j, e j := by
    rw [Finset.sum_congr rfl fun j _ => e2 j, Finset.sum_sub_distrib, Finset.sum_sub_distrib,
      Finset.sum_const, Finset.card_univ, Fintype.card_fin, nsmul_eq_mul, ← Finset.sum_filter,
      Finset.sum_const, nsmul_eq_mul]
    have : crossings ψ d = (Finset.univ.filter fun j => yawCut < ψ + |d j|).card := by
      unfold crossings
      rw [← yawCut_lit]
      congr 1
      ext j
      simp only [Finset.mem_filter, Finset.mem_univ, true_and]
      constructor
      · rintro (h | h)
        · exact h.2
        · linarith [h.1]
      · exact fun h => .inl ⟨h1, h⟩
    rw [this]
    ring
  have he0 : 0 ≤ ∑ j, e j := Finset.sum_nonneg fun j _ => e0 j
  have he1 : ∑ j, e j ≤ n * (4 * (yawCut - Real.pi)) := by
    have := Finset.sum_le_sum fun j (_ : j ∈ Finset.univ) => e1 j
    simpa using this
  rw [hsum, f2]
  have key : (N - n) / N * (ψ + 0 - 0 - f) +
      1 / (2 * N) * (2 * n * ψ - 2 * Real.pi * crossings ψ d - ∑ j, e j) -
      (ψ - Real.pi * crossings ψ d / N) = -(((N - n) * f + (∑ j, e j) / 2) / N) := by
    field_simp
    ring
  have hb : ((N - n) * f + (∑ j, e j) / 2) / N ≤ 2 * (yawCut - Real.pi) := by
    rw [div_le_iff₀ hN']
    have := mul_le_mul_of_nonneg_left f1 (show 0 ≤ N - n by linarith)
    linarith
  have hb' : 0 ≤ ((N - n) * f + (∑ j, e j) / 2) / N := by
    have := mul_nonneg (show 0 ≤ N - n by linarith) f0
    positivity
  rw [key, abs_neg, abs_of_nonneg hb']
  refine hb.trans ?_
  norm_num at c2 ⊢
  linarith

/-- weighted mean of the headings of the points, for a heading above the cut -/
theorem mean_high {n : ℕ} {ψ N : ℝ} (hn : 0 < n) (hN : n ≤ N) (h0 : yawCut < ψ)
    (h1 : ψ < 2 * Real.pi)
    {d v w : Fin n → ℝ} (hd : ∀ j, |d j| ≤ 3)
    (hv : ∀ j, SameDir (v j) (ψ + d j)) (hr : ∀ j, 0 ≤ v j ∧ v j < 2 * Real.pi)
    (hw : ∀ j, SameDir (w j) (ψ - d j)) (hs : ∀ j, 0 ≤ w j ∧ w j < 2 * Real.pi)
    {u : ℝ} (hu : SameDir u ψ) (hur : 0 ≤ u ∧ u < 2 * Real.pi) :
    |(N - n) / N * rotateHeading u +
        1 / (2 * N) * ∑ j, (rotateHeading (v j) + rotateHeading (w j)) -
      (ψ - 2 * Real.pi + Real.pi * crossings ψ d / N)| ≤ 2 / 10 ^ 12 := by
  obtain ⟨c1, c2⟩ := yawCut_bounds
  have hn' : (0 : ℝ) < n := by exact_mod_cast hn
  have hN' : 0 < N := by linarith
  obtain ⟨f, f0, f1, f2⟩ := cut_high h0 h1 (d := 0) (by norm_num) (by rw [add_zero]; exact hu) hur
  rw [if_neg (by linarith)] at f2
  choose e e0 e1 e2 using fun j => pair_high h0 h1 (hd j) (hv j) (hr j) (hw j) (hs j)
  have hsum : ∑ j, (rotateHeading (v j) + rotateHeading (w j)) =
      2 * n * ψ - 4 * Real.pi * n + 2 * Real.pi * crossings ψ d - ∑ j, e j := by
    rw [Finset.sum_congr rfl fun j _ => e2 j, Finset.sum_sub_distrib, Finset.sum_add_distrib,
      Finset.sum_const, Finset.card_univ, Fintype.card_fin, nsmul_eq_mul, ← Finset.sum_filter,
      Finset.sum_const, nsmul_eq_mul]
    have : crossings ψ d = (Finset.univ.filter fun j => ψ - |d j| ≤ yawCut).card := by
      unfold crossings
      rw [← yawCut_lit]
      congr 1
      ext j
      simp only [Finset.mem_filter, Finset.mem_univ, true_and]
      constructor
      · rintro (h | h)
        · linarith [h.1]
        · exact h.2
      · exact fun h => .inr ⟨h0, h⟩
    rw [this]
    ring
  have he0 : 0 ≤ ∑ j, e j := Finset.sum_nonneg fun j _ => e0 j
  have he1 : ∑ j, e j ≤ n * (4 * (yawCut - Real.pi)) := by
    have := Finset.sum_le_sum fun j (_ : j ∈ Finset.univ) => e1 j
    simpa using this
  rw [hsum, f2]
  have key : (N - n) / N * (ψ + 0 - 2 * Real.pi + 0 - f) +
      1 / (2 * N) * (2 * n * ψ - 4 * Real.pi * n + 2 * Real.pi * crossings ψ d - ∑ j, e j) -
      (ψ - 2 * Real.pi + Real.pi * crossings ψ d / N) =
        -(((N - n) * f + (∑ j, e j) / 2) / N) := by
    field_simp
    ring
  have hb : ((N - n) * f + (∑ j, e j) / 2) / N ≤ 2 * (yawCut - Real.pi) := by
    rw [div_le_iff₀ hN']
    have := mul_le_mul_of_nonneg_left f1 (show 0 ≤ N - n by linarith)
    linarith
  have hb' : 0 ≤ ((N - n) * f + (∑ j, e j) / 2) / N := by
    have := mul_nonneg (show 0 ≤ N - n by linarith) f0
    positivity
  rw [key, abs_neg, abs_of_nonneg hb']
  refine hb.trans ?_
  norm_num at c2 ⊢
  linarith

section
variable {S : Type} {n : ℕ} [MotionModel S n] [MotionLaws S n]

/-- the predicted heading of any object whose heading grows by turn rate times time -/
theorem ukfPredict_heading (chol : Chol) (s : S) (P : Matrix (Fin n) (Fin n) ℝ) {α β κ dt ψ : ℝ}
    (hN : (n : ℝ) ≤ α ^ 2 * (n + κ)) (i k : Fin n) (hi : i.1 = 3)
    (hnext : ∀ (p : S) (z : Fin n → ℝ), SameUpToTurns (MotionModel.toVec p) z →
      SameDir (MotionModel.toVec (MotionModel.next p dt) i) (z i + dt * z k))
    (h0 : 0 ≤ ψ) (h1 : ψ < 2 * Real.pi)
    (hψ : SameDir ψ (MotionModel.toVec s i + dt * MotionModel.toVec s k))
    (hd : ∀ j, |√(α ^ 2 * (n + κ)) * (chol n P i j + dt * chol n P k j)| ≤ 3) :
    ∃ x C, ukfPredict chol s P dt α β κ = .ok (MotionModel.ofVec x, C) ∧
      ∃ ε, |ε| ≤ 2 / 10 ^ 12 ∧ SameDir (x i) (ψ + (if ψ ≤ yawCut then -1 else 1) *
        (Real.pi * crossings ψ (fun j => √(α ^ 2 * (n + κ)) * (chol n P i j + dt * chol n P k j)) /
          (α ^ 2 * (n + κ))) + ε) := by
  have hn : 0 < n := Nat.lt_of_le_of_lt (Nat.zero_le _) i.2
  have hn' : (0 : ℝ) < n := by exact_mod_cast hn
  obtain ⟨x, C, hx, hm⟩ := ukfPredict_mean chol s P dt α β κ (by linarith)
  refine ⟨x, C, hx, ?_⟩
  have hm := hm i
  have hlam : generateLambda n α κ = α ^ 2 * (n + κ) - n := by
    rw [← lambda_sum]; ring
  simp only [rotateYaw_heading _ _ hi] at hm
  rw [hlam] at hm
  set N := α ^ 2 * (n + κ)
  set d : Fin n → ℝ := fun j => √N * (chol n P i j + dt * chol n P k j) with hdd
  have hu : SameDir (MotionModel.toVec (MotionModel.next s dt) i) ψ :=
    (hnext s _ (sameUpToTurns_refl _)).trans hψ.symm
  have hv : ∀ j, SameDir (MotionModel.toVec (MotionModel.next (MotionModel.add s
      (MotionModel.ofVec (√N • (chol n P).col j))) dt) i) (ψ + d j) := by
    intro j
    refine (hnext _ _ (MotionLaws.toVec_add s _)).trans ?_
    have : (MotionModel.toVec s + √N • (chol n P).col j) i +
        dt * (MotionModel.toVec s + √N • (chol n P).col j) k =
        (MotionModel.toVec s i + dt * MotionModel.toVec s k) + d j := by
      simp only [Pi.add_apply, Pi.smul_apply, smul_eq_mul, Matrix.col_apply, hdd]
      ring
    rw [this]
    exact hψ.symm.add (SameDir.refl _)
  have hw : ∀ j, SameDir (MotionModel.toVec (MotionModel.next (MotionModel.sub s
      (MotionModel.ofVec (√N • (chol n P).col j))) dt) i) (ψ - d j) := by
    intro j
    refine (hnext _ _ (MotionLaws.toVec_sub s _)).trans ?_
    have : (MotionModel.toVec s - √N • (chol n P).col j) i +
        dt * (MotionModel.toVec s - √N • (chol n P).col j) k =
        (MotionModel.toVec s i + dt * MotionModel.toVec s k) - d j := by
      simp only [Pi.sub_apply, Pi.smul_apply, smul_eq_mul, Matrix.col_apply, hdd]
      ring
    rw [this]
    exact hψ.symm.sub (SameDir.refl _)
  by_cases hc : ψ ≤ yawCut
  · have := mean_low hn hN h0 hc hd hv (fun j => MotionLaws.range _ i hi) hw
      (fun j => MotionLaws.range _ i hi) hu (MotionLaws.range _ i hi)
    rw [← hm] at this
    refine ⟨_, this, ?_⟩
    rw [if_pos hc]
    exact ⟨0, by push_cast; ring⟩
  · have := mean_high hn hN (not_le.1 hc) h1 hd hv (fun j => MotionLaws.range _ i hi) hw
      (fun j => MotionLaws.range _ i hi) hu (MotionLaws.range _ i hi)
    rw [← hm] at this
    refine ⟨_, this, ?_⟩
    rw [if_neg hc]
    exact ⟨-1, by push_cast; ring⟩

end

end Mot
