import Verif.Proofs.Indefinite
/-!
# How far prediction moves an object
-/

namespace Mot

open Matrix Spec

section mean
variable {S : Type}

/-- properties of a mean with weights that are not negative -/
structure IsAverage (M : (S → ℝ) → ℝ) : Prop where
  add : ∀ f g, M (fun p => f p + g p) = M f + M g
  mul : ∀ (c : ℝ) f, M (fun p => c * f p) = c * M f
  one : M (fun _ => 1) = 1
  mono : ∀ f g, (∀ p, f p ≤ g p) → M f ≤ M g

namespace IsAverage
variable {M : (S → ℝ) → ℝ} (h : IsAverage M)
include h

theorem const (c : ℝ) : M (fun _ => c) = c := by
  have := h.mul c fun _ => 1
  rw [h.one, mul_one] at this
  simpa using this

theorem sub (f g : S → ℝ) : M (fun p => f p - g p) = M f - M g := by
  have h1 := h.add f fun p => -1 * g p
  rw [h.mul] at h1
  calc M (fun p => f p - g p) = M (fun p => f p + -1 * g p) := by
        congr 1; funext p; ring
    _ = _ := by rw [h1]; ring

theorem nonneg (f : S → ℝ) (hf : ∀ p, 0 ≤ f p) : 0 ≤ M f := by
  have := h.mono (fun _ => 0) f hf
  rwa [h.const] at this

/-- the mean of the size is at most the root of the mean square -/
theorem abs_le (f : S → ℝ) : M (fun p => |f p|) ≤ √(M fun p => f p ^ 2) := by
  refine Real.le_sqrt_of_sq_le ?_
  set m := M fun p => |f p| with hm
  have h1 := h.nonneg (fun p => (|f p| - m) ^ 2) fun p => sq_nonneg _
  have e : (fun p => (|f p| - m) ^ 2) = fun p => f p ^ 2 + ((-(2 * m)) * |f p| + m ^ 2) := by
    funext p
    rw [sub_sq, sq_abs]; ring
  rw [e, h.add, h.add, h.mul, h.const, ← hm] at h1
  nlinarith

/-- the mean of displacements is at most as long as the mean of their lengths -/
theorem norm_le (f g : S → ℝ) : √(M f ^ 2 + M g ^ 2) ≤ M fun p => √(f p ^ 2 + g p ^ 2) := by
  set R := √(M f ^ 2 + M g ^ 2) with hR
  have hR0 : 0 ≤ R := Real.sqrt_nonneg _
  have hR2 : R ^ 2 = M f ^ 2 + M g ^ 2 := Real.sq_sqrt (by positivity)
  rcases hR0.eq_or_lt with h0 | h0
  · rw [← h0]; exact h.nonneg _ fun p => Real.sqrt_nonneg _
  have h1 := h.mono (fun p => M f * f p + M g * g p) (fun p => R * √(f p ^ 2 + g p ^ 2)) (by
    intro p
    have hl : M f * f p + M g * g p ≤ √((M f ^ 2 + M g ^ 2) * (f p ^ 2 + g p ^ 2)) := by
      refine Real.le_sqrt_of_sq_le ?_
      nlinarith [sq_nonneg (M f * g p - M g * f p)]
    rwa [Real.sqrt_mul (by positivity)] at hl)
  rw [h.add, h.mul, h.mul, h.mul] at h1
  have : R * R ≤ R * M fun p => √(f p ^ 2 + g p ^ 2) := by nlinarith
  exact le_of_mul_le_mul_left this h0

end IsAverage

end mean

section
variable {S : Type} {n : ℕ} [MotionModel S n]

/-- weighted mean over the state and the sigma points -/
noncomputable def sigmaMean (s : S) (L : Matrix (Fin n) (Fin n) ℝ) (N : ℝ) (f : S → ℝ) : ℝ :=
  (N - n) / N * f s + 1 / (2 * N) * ∑ j,
    (f (MotionModel.add s (MotionModel.ofVec (√N • L.col j))) +
     f (MotionModel.sub s (MotionModel.ofVec (√N • L.col j))))

theorem sigmaMean_isAverage (s : S) (L : Matrix (Fin n) (Fin n) ℝ) {N : ℝ} (hN : 0 < N)
    (hn : n ≤ N) : IsAverage (sigmaMean s L N) where
  add f g := by
    unfold sigmaMean
    rw [show (∑ j, (f (MotionModel.add s (MotionModel.ofVec (√N • L.col j))) +
        g (MotionModel.add s (MotionModel.ofVec (√N • L.col j))) +
        (f (MotionModel.sub s (MotionModel.ofVec (√N • L.col j))) +
        g (MotionModel.sub s (MotionModel.ofVec (√N • L.col j)))))) =
      (∑ j, (f (MotionModel.add s (MotionModel.ofVec (√N • L.col j))) +
        f (MotionModel.sub s (MotionModel.ofVec (√N • L.col j))))) +
      ∑ j, (g (MotionModel.add s (MotionModel.ofVec (√N • L.col j))) +
        g (MotionModel.sub s (MotionModel.ofVec (√N • L.col j)))) by
      rw [← Finset.sum_add_distrib]; exact Finset.sum_congr rfl fun j _ => by ring]
    ring
  mul c f := by
    unfold sigmaMean
    simp only [← mul_add]
    rw [← Finset.mul_sum]
    ring
  one := by
    unfold sigmaMean
    simp only [Finset.sum_const, Finset.card_univ, Fintype.card_fin, nsmul_eq_mul]
    field_simp
    ring
  mono f g h := by
    unfold sigmaMean
    refine add_le_add (mul_le_mul_of_nonneg_left (h _) (div_nonneg (by linarith) hN.le))
      (mul_le_mul_of_nonneg_left (Finset.sum_le_sum fun j _ => add_le_add (h _) (h _)) ?_)
    positivity

variable [MotionLaws S n]

theorem sigma_entry (s : S) (v : Fin n → ℝ) {i : Fin n} (hi : i.1 ≠ 3) :
    MotionModel.toVec (MotionModel.add s (MotionModel.ofVec v)) i = MotionModel.toVec s i + v i ∧
    MotionModel.toVec (MotionModel.sub s (MotionModel.ofVec v)) i = MotionModel.toVec s i - v i := by
  have h1 := MotionLaws.toVec_add s v i
  have h2 := MotionLaws.toVec_sub s v i
  rw [if_neg hi] at h1 h2
  exact ⟨h1, h2⟩

/-- the mean of a component is that of the state -/
theorem sigmaMean_entry (s : S) (L : Matrix (Fin n) (Fin n) ℝ) {N : ℝ} (hN : 0 < N)
    {i : Fin n} (hi : i.1 ≠ 3) :
    sigmaMean s L N (fun p => MotionModel.toVec p i) = MotionModel.toVec s i := by
  unfold sigmaMean
  simp only [sigma_entry s _ hi, add_add_sub_cancel, Finset.sum_const, Finset.card_univ,
    Fintype.card_fin, nsmul_eq_mul]
  field_simp
  ring

/-- the mean square of a component -/
theorem sigmaMean_sq (s : S) {L P : Matrix (Fin n) (Fin n) ℝ} (hL : L * Lᵀ = P) {N : ℝ}
    (hN : 0 < N) {i : Fin n} (hi : i.1 ≠ 3) :
    sigmaMean s L N (fun p => MotionModel.toVec p i ^ 2) = MotionModel.toVec s i ^ 2 + P i i := by
  have e : P i i = ∑ j, L i j ^ 2 := by
    rw [← hL, mul_apply]
    exact Finset.sum_congr rfl fun j _ => by rw [transpose_apply]; ring
  unfold sigmaMean
  simp only [sigma_entry s _ hi]
  have e2 : ∀ j, (MotionModel.toVec s i + (√N • L.col j) i) ^ 2 +
      (MotionModel.toVec s i - (√N • L.col j) i) ^ 2 =
      2 * MotionModel.toVec s i ^ 2 + 2 * N * L i j ^ 2 := by
    intro j
    rw [Pi.smul_apply, smul_eq_mul, Matrix.col_apply]
    have := Real.sq_sqrt hN.le
    linear_combination 2 * L i j ^ 2 * this
  simp only [e2]
  rw [Finset.sum_add_distrib, ← Finset.mul_sum Finset.univ (fun j => L i j ^ 2) (2 * N), ← e,
    Finset.sum_const, Finset.card_univ, Fintype.card_fin, nsmul_eq_mul]
  field_simp
  ring

omit [MotionLaws S n] in
/-- predicted components other than the heading -/
theorem ukfPredict_entry (chol : Chol) (s : S) (P : Matrix (Fin n) (Fin n) ℝ) (dt α β κ : ℝ)
    (hN : 0 < α ^ 2 * (n + κ)) : ∃ x C, ukfPredict chol s P dt α β κ = .ok (MotionModel.ofVec x, C) ∧
      ∀ i : Fin n, i.1 ≠ 3 → x i = sigmaMean s (chol n P) (α ^ 2 * (n + κ)) fun p =>
        MotionModel.toVec (MotionModel.next p dt) i := by
  obtain ⟨x, C, h, hx⟩ := ukfPredict_mean chol s P dt α β κ hN
  refine ⟨x, C, h, fun i hi => ?_⟩
  rw [hx i]
  unfold sigmaMean
  simp only [rotateYaw_of_ne hi]
  rw [← lambda_sum]
  ring_nf

/-- If a step moves every state by at most `c₁ |k| + c₂ |l|`, for components `k` and `l`, the
prediction moves the position by at most the same of the root mean squares. -/
theorem ukfPredict_displacement {chol : Chol} (hchol : IsLlt chol) (s : S)
    {P : Matrix (Fin n) (Fin n) ℝ} (hP : P.PosDef) {dt α β κ : ℝ} (hN : 0 < α ^ 2 * (n + κ))
    (hn : n ≤ α ^ 2 * (n + κ)) {i₀ i₁ k l : Fin n} (h0 : i₀.1 ≠ 3) (h1 : i₁.1 ≠ 3) (hk : k.1 ≠ 3)
    (hl : l.1 ≠ 3) {c₁ c₂ : ℝ} (hc1 : 0 ≤ c₁) (hc2 : 0 ≤ c₂)
    (hb : ∀ p : S, √((MotionModel.toVec (MotionModel.next p dt) i₀ - MotionModel.toVec p i₀) ^ 2 +
      (MotionModel.toVec (MotionModel.next p dt) i₁ - MotionModel.toVec p i₁) ^ 2) ≤
      c₁ * |MotionModel.toVec p k| + c₂ * |MotionModel.toVec p l|) :
    ∃ x C, ukfPredict chol s P dt α β κ = .ok (MotionModel.ofVec x, C) ∧
      √((x i₀ - MotionModel.toVec s i₀) ^ 2 + (x i₁ - MotionModel.toVec s i₁) ^ 2) ≤
        c₁ * √(MotionModel.toVec s k ^ 2 + P k k) + c₂ * √(MotionModel.toVec s l ^ 2 + P l l) := by
  obtain ⟨x, C, h, hx⟩ := ukfPredict_entry chol s P dt α β κ hN
  refine ⟨x, C, h, ?_⟩
  have hM := sigmaMean_isAverage s (chol n P) hN hn
  have hL := (hchol n P hP).factor
  have key : ∀ i : Fin n, i.1 ≠ 3 → x i - MotionModel.toVec s i = sigmaMean s (chol n P)
      (α ^ 2 * (n + κ)) fun p => MotionModel.toVec (MotionModel.next p dt) i -
        MotionModel.toVec p i := by
    intro i hi
    rw [hM.sub, sigmaMean_entry s (chol n P) hN hi, hx i hi]
  rw [key i₀ h0, key i₁ h1, ← sigmaMean_sq s hL hN hk, ← sigmaMean_sq s hL hN hl]
  refine (hM.norm_le _ _).trans ((hM.mono _ _ hb).trans ?_)
  rw [hM.add, hM.mul, hM.mul]
  exact add_le_add (mul_le_mul_of_nonneg_left (hM.abs_le _) hc1)
    (mul_le_mul_of_nonneg_left (hM.abs_le _) hc2)

end

theorem predictedRows_smul {S : Type} {n : ℕ} [MotionModel S n] (s : S)
    (L : Matrix (Fin n) (Fin n) ℝ) (c r dt : ℝ) :
    predictedRows s (c • L) r dt = predictedRows s L (r * c) dt := by
  have : ∀ j, r • (c • L).col j = (r * c) • L.col j := by
    intro j
    funext i
    simp only [Pi.smul_apply, Matrix.col_apply, Matrix.smul_apply, smul_eq_mul]
    ring
  unfold predictedRows sigmaLoop
  simp only [this]

theorem coupledRoot_cholesky : IsCholesky coupledRoot (coupledRoot * coupledRootᵀ) where
  lower i j hij := by
    fin_cases i <;> fin_cases j <;> first | rfl | exact absurd hij (by decide)
  diag i := by
    have hp := Real.pi_pos
    fin_cases i
    · exact one_pos
    · exact one_pos
    · exact one_pos
    · exact half_pos hp
    · exact hp
  factor := rfl

/-- x coordinate predicted with the centre weight -4 -/
theorem far_predict {chol : Chol} (hchol : IsLlt chol) {α : ℝ} (hα : α ^ 2 = 1 / 7) (β : ℝ) :
    ∃ s C, ukfPredict chol eastState (coupledRoot * coupledRootᵀ) 1 α β 2 = .ok (s, C) ∧
      s.x = -28 := by
  have hL : chol 5 (coupledRoot * coupledRootᵀ) = coupledRoot :=
    (hchol 5 _ coupledRoot_cholesky.posDef).unique coupledRoot_cholesky
  have hN : α ^ 2 * (((5 : ℕ) : ℝ) + 2) = 1 := by rw [hα]; norm_num
  rw [ukfPredict_eq chol eastState _ 1 α β 2 (by rw [hN]; norm_num), hN, hL]
  have hr := coupled_rows
  have h7 : √7 * (1 / √7) = (1 : ℝ) := by
    rw [mul_one_div, div_self (Real.sqrt_ne_zero'.2 (by norm_num))]
  rw [predictedRows_smul, h7] at hr
  obtain ⟨r, l, hrl⟩ : ∃ r l, predictedRows eastState coupledRoot 1 1 = r :: l := ⟨_, _, rfl⟩
  rw [Real.sqrt_one]
  rw [hrl] at hr ⊢
  rw [List.map_cons, List.cons.injEq] at hr
  have hlen : l.length = 2 * 5 := by
    have := congrArg List.length hr.2
    simpa using this
  rw [computeUt_cons _ _ _ _ _ hlen]
  refine ⟨_, _, rfl, ?_⟩
  have hsum : l.sum 0 = 0 := by
    have : l.sum 0 = (l.map fun v => v 0).sum := by
      clear hr hlen hrl
      induction l with
      | nil => rfl
      | cons p l ih => rw [List.sum_cons, Pi.add_apply, ih, List.map_cons, List.sum_cons]
    rw [this, hr.2]
    norm_num
  have hlam : generateLambda 5 α 2 = -4 := by
    have := lambda_sum 5 α 2
    rw [hN] at this
    push_cast at this
    linarith
  show ((generateLambda 5 α 2 / 1) • r + (1 / (2 * 1) : ℝ) • l.sum) 0 = -28
  rw [hlam, Pi.add_apply, Pi.smul_apply, Pi.smul_apply, hsum, hr.1]
  norm_num

end Mot
