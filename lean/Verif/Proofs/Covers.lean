import Verif.Spec.Covers
import Verif.Proofs.Growth
import Verif.Proofs.Singular
import Mathlib.Analysis.Convex.SpecificFunctions.Deriv
import Mathlib.Analysis.SpecialFunctions.Trigonometric.Bounds
import Mathlib.Analysis.Real.Pi.Bounds
/-!
# What prediction does to errors within the covariance
-/

namespace Mot

open Matrix Spec Real

/-- If in the variables `I` a covariance and an error are the images of others under a linear map, the
error stays covered. -/
theorem covers_map {n : ℕ} {P Q A : Matrix (Fin n) (Fin n) ℝ} {k : ℝ} {I : Set (Fin n)} {e f : Fin n → ℝ}
    (h : Covers P k .univ e) (hf : ∀ i ∈ I, f i = (A *ᵥ e) i)
    (hQ : ∀ i ∈ I, ∀ j ∈ I, Q i j = (A * P * Aᵀ) i j) : Covers Q k I f := by
  intro u hu
  have h1 := h (Aᵀ *ᵥ u) fun i hi => absurd (Set.mem_univ i) hi
  have e1 : u ⬝ᵥ f = (Aᵀ *ᵥ u) ⬝ᵥ e := by
    rw [mulVec_transpose, ← dotProduct_mulVec]
    refine Finset.sum_congr rfl fun i _ => ?_
    by_cases hi : i ∈ I
    · rw [hf i hi]
    · rw [hu i hi, zero_mul, zero_mul]
  have e2 : u ⬝ᵥ (Q *ᵥ u) = (Aᵀ *ᵥ u) ⬝ᵥ (P *ᵥ (Aᵀ *ᵥ u)) := by
    have : (Aᵀ *ᵥ u) ⬝ᵥ (P *ᵥ (Aᵀ *ᵥ u)) = u ⬝ᵥ ((A * P * Aᵀ) *ᵥ u) := by
      rw [mulVec_transpose, ← dotProduct_mulVec, ← mulVec_transpose, mulVec_mulVec, mulVec_mulVec]
    rw [this]
    refine Finset.sum_congr rfl fun i _ => ?_
    by_cases hi : i ∈ I
    · congr 1
      show ∑ j, Q i j * u j = ∑ j, (A * P * Aᵀ) i j * u j
      refine Finset.sum_congr rfl fun j _ => ?_
      by_cases hj : j ∈ I
      · show Q i j * u j = (A * P * Aᵀ) i j * u j
        rw [hQ i hi j hj]
      · show Q i j * u j = (A * P * Aᵀ) i j * u j
        rw [hu j hj, mul_zero, mul_zero]
    · rw [hu i hi, zero_mul, zero_mul]
  rw [e1, e2]
  exact h1

/-- an error of one standard deviation of one variable is covered by a diagonal covariance -/
theorem covers_diagonal {n : ℕ} {d : Fin n → ℝ} (hd : ∀ i, 0 < d i) (j : Fin n) :
    Covers (diagonal d) 1 .univ (Pi.single j √(d j)) := by
  intro u _
  have e : u ⬝ᵥ (diagonal d *ᵥ u) = ∑ i, d i * u i ^ 2 := by
    refine Finset.sum_congr rfl fun i _ => ?_
    rw [mulVec_diagonal]; ring
  rw [dotProduct_single, mul_pow, Real.sq_sqrt (hd j).le, e, one_pow, one_mul]
  have := Finset.single_le_sum (f := fun i => d i * u i ^ 2)
    (fun i _ => mul_nonneg (hd i).le (sq_nonneg _)) (Finset.mem_univ j)
  linarith

open Classical in
/-- the x coordinate of a predicted CTRV state -/
theorem ctrv_next_x (x y v c w T : ℝ) : (CtrvState.next ⟨x, y, v, Angle.ofRad c, w⟩ T).x =
    x + if unitsEq w 0 then v * cos c * T else v / w * (sin (c + w * T) - sin c) := by
  unfold CtrvState.next
  dsimp only
  have hs : sin ((Angle.ofRad c).getAngle + w * T) = sin (c + w * T) := by
    rw [sin_add, sin_add, Angle.cos_getAngle_ofRad, Angle.sin_getAngle_ofRad]
  split
  · rw [Angle.cos_getAngle_ofRad]
  · rw [hs, Angle.sin_getAngle_ofRad, mul_one]

open Classical in
/-- how far to the left an object moving in direction π/2 with speed `V` gets within `T`, turning at the rate `w` -/
noncomputable def aside (V w T : ℝ) : ℝ := if unitsEq w 0 then 0 else V / w * (cos (w * T) - 1)

theorem next_x_north (x y v w T : ℝ) : (CtrvState.next ⟨x, y, v, Angle.ofRad (π / 2), w⟩ T).x = x + aside v w T := by
  rw [ctrv_next_x]
  unfold aside
  rw [cos_pi_div_two, mul_zero, zero_mul, add_comm (π / 2), sin_add_pi_div_two, sin_pi_div_two]

theorem unitsEq_neg_zero (w : ℝ) : unitsEq (-w) 0 ↔ unitsEq w 0 := by
  unfold unitsEq
  rw [sub_zero, sub_zero, add_zero, add_zero, abs_neg]

theorem aside_neg (V w T : ℝ) : aside V (-w) T = -aside V w T := by
  unfold aside
  by_cases h : unitsEq w 0
  · rw [if_pos h, if_pos ((unitsEq_neg_zero w).2 h), neg_zero]
  · rw [if_neg h, if_neg (mt (unitsEq_neg_zero w).1 h), neg_mul, cos_neg, div_neg]; ring

theorem aside_zero (V T : ℝ) : aside V 0 T = 0 := if_pos unitsEq_zero_zero

theorem aside_turn (V : ℝ) {w T : ℝ} (h : w * T = 2 * π) : aside V w T = 0 := by
  unfold aside
  rw [h, cos_two_pi, sub_self, mul_zero, ite_self]

theorem aside_sq_le (V w T : ℝ) : aside V w T ^ 2 ≤ V ^ 2 * w ^ 2 * T ^ 4 / 4 := by
  unfold aside
  split
  · rw [zero_pow two_ne_zero]; positivity
  · by_cases hw : w = 0
    · subst hw; simp
    have h1 : 1 - cos (w * T) ≤ (w * T) ^ 2 / 2 := by linarith [one_sub_sq_div_two_le_cos (x := w * T)]
    have h2 : 0 ≤ 1 - cos (w * T) := by linarith [cos_le_one (w * T)]
    have h3 : (1 - cos (w * T)) ^ 2 ≤ ((w * T) ^ 2 / 2) ^ 2 := pow_le_pow_left₀ h2 h1 2
    calc (V / w * (cos (w * T) - 1)) ^ 2 = V ^ 2 / w ^ 2 * (1 - cos (w * T)) ^ 2 := by ring
      _ ≤ V ^ 2 / w ^ 2 * ((w * T) ^ 2 / 2) ^ 2 := mul_le_mul_of_nonneg_left h3 (by positivity)
      _ = _ := by field_simp; ring

/-- An object that moves in direction π/2 without turning, with uncorrelated uncertainties: its predicted x
coordinate and the variance of that. -/
theorem straight_predict {chol : Chol} (hchol : IsLlt chol) {d : Fin 5 → ℝ} (hd : ∀ i, 0 < d i) (V T : ℝ) :
    ∃ x C, ukfPredict chol (⟨0, 0, V, Angle.ofRad (π / 2), 0⟩ : CtrvState) (diagonal d) T 1 1 2 =
        .ok (CtrvState.ofVec x, C) ∧ x 0 = 0 ∧
      C 0 0 = d 0 + (V * T * sin (√7 * √(d 3))) ^ 2 / 7 + aside V (√7 * √(d 4)) T ^ 2 / 7 := by
  obtain ⟨x, C, h, hx⟩ := ukfPredict_variance chol (⟨0, 0, V, Angle.ofRad (π / 2), 0⟩ : CtrvState) (diagonal d)
    (dt := T) (α := 1) (β := 1) (κ := 2) (N := 7) (by norm_num) (by norm_num)
  refine ⟨x, C, h, ?_⟩
  obtain ⟨h0, h1⟩ := hx 0 (by decide)
  have hg : (Angle.ofRad (π / 2)).getAngle = π / 2 :=
    Angle.getAngle_ofRad_of_range ⟨by positivity, by linarith [pi_pos]⟩
  have e : ∀ p : CtrvState, MotionModel.toVec (MotionModel.next p T) 0 = (p.next T).x := fun _ => rfl
  have hturn : ∀ a : ℝ, (CtrvState.next ⟨0, 0, V, Angle.ofRad (π / 2 + a), 0⟩ T).x = -(V * T * sin a) := by
    intro a
    rw [ctrv_next_x, if_pos unitsEq_zero_zero, add_comm (π / 2), cos_add_pi_div_two]
    ring
  have hturn' : ∀ a : ℝ, (CtrvState.next ⟨0, 0, V, Angle.ofRad (π / 2 - a), 0⟩ T).x = V * T * sin a := by
    intro a
    rw [sub_eq_add_neg, hturn, sin_neg]
    ring
  have hz : (CtrvState.next ⟨0, 0, V, Angle.ofRad (π / 2), 0⟩ T).x = 0 := by
    rw [next_x_north, aside_zero, add_zero]
  set a : Fin 5 → ℝ := ![√7 * √(d 0), 0, 0, -(V * T * sin (√7 * √(d 3))), aside V (√7 * √(d 4)) T] with ha
  have key : ∀ j, (CtrvState.next (MotionModel.add (⟨0, 0, V, Angle.ofRad (π / 2), 0⟩ : CtrvState)
        (MotionModel.ofVec (√7 • (diagonal fun i => √(d i)).col j))) T).x = a j ∧
      (CtrvState.next (MotionModel.sub (⟨0, 0, V, Angle.ofRad (π / 2), 0⟩ : CtrvState)
        (MotionModel.ofVec (√7 • (diagonal fun i => √(d i)).col j))) T).x = -a j := by
    intro j
    rw [ctrv_add_vec, ctrv_sub_vec]
    simp only [diagonal_col, hg]
    fin_cases j
    · simp [next_x_north, aside_zero, ha]
    · simp [next_x_north, aside_zero, ha]
    · simp [next_x_north, aside_zero, ha]
    · simp [hturn, hturn', ha]
    · simp [next_x_north, aside_neg, ha]
  unfold sigmaSum at h0 h1
  rw [hchol.diagonal hd] at h0 h1
  simp only [e, hz, sub_zero, key, neg_sq] at h0 h1
  refine ⟨by rw [h0]; simp, ?_⟩
  rw [h1]
  have h7 : √7 ^ 2 = (7 : ℝ) := Real.sq_sqrt (by norm_num)
  have h8 : √(d 0) ^ 2 = d 0 := Real.sq_sqrt (hd 0).le
  rw [Fin.sum_univ_five, show a 0 = √7 * √(d 0) from rfl, show a 1 = 0 from rfl, show a 2 = 0 from rfl,
    show a 3 = -(V * T * sin (√7 * √(d 3))) from rfl, show a 4 = aside V (√7 * √(d 4)) T from rfl,
    mul_pow √7, h7, h8]
  ring

end Mot
