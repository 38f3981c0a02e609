import Verif.Proofs.Covers
import Verif.Proofs.LinearPart
/-!
Auxiliary results for C130 and C133: CTRA objects that move straight ahead without accelerating.
-/

namespace Mot

open Matrix Spec Real

open Classical in
theorem ctra_next_x (x y v c w T : ℝ) : (CtraState.next ⟨x, y, v, Angle.ofRad c, w, 0⟩ T).x =
    x + if unitsEq w 0 then v * cos c * T else v / w * (sin (c + w * T) - sin c) := by
  have hy : sin ((Angle.ofRad c).add (Angle.ofRad (w * T))).getAngle = sin (c + w * T) := by
    obtain ⟨k, hk⟩ := next_yaw_sameDir (Angle.ofRad c) w T (Angle.sameDir_getAngle c)
    rw [hk, sin_add_int_mul_two_pi, mul_comm T]
  unfold CtraState.next
  dsimp only
  split
  · rw [Angle.cos_getAngle_ofRad]; ring
  · rename_i h
    have hw : w ≠ 0 := by rintro rfl; exact h unitsEq_zero_zero
    rw [hy, Angle.sin_getAngle_ofRad]
    field_simp
    ring

theorem ctra_next_x_north (x y v w T : ℝ) :
    (CtraState.next ⟨x, y, v, Angle.ofRad (π / 2), w, 0⟩ T).x = x + aside v w T := by
  rw [ctra_next_x]
  unfold aside
  rw [cos_pi_div_two, mul_zero, zero_mul, add_comm (π / 2), sin_add_pi_div_two, sin_pi_div_two]

/-- without turning, an acceleration does not move an object with the heading π/2 aside -/
theorem ctra_next_x_ahead (x y v a T : ℝ) :
    (CtraState.next ⟨x, y, v, Angle.ofRad (π / 2), 0, a⟩ T).x = x := by
  unfold CtraState.next
  dsimp only
  rw [if_pos unitsEq_zero_zero]
  dsimp only
  rw [Angle.cos_getAngle_ofRad, cos_pi_div_two, mul_zero, add_zero]

/-- `straight_predict` for CTRA objects without acceleration -/
theorem straight_predict_ctra {chol : Chol} (hchol : IsLlt chol) {d : Fin 6 → ℝ} (hd : ∀ i, 0 < d i) (V T : ℝ) :
    ∃ x C, ukfPredict chol (⟨0, 0, V, Angle.ofRad (π / 2), 0, 0⟩ : CtraState) (diagonal d) T 1 1 2 =
        .ok (CtraState.ofVec x, C) ∧ x 0 = 0 ∧
      C 0 0 = d 0 + (V * T * sin (√8 * √(d 3))) ^ 2 / 8 + aside V (√8 * √(d 4)) T ^ 2 / 8 := by
  obtain ⟨x, C, h, hx⟩ := ukfPredict_variance chol (⟨0, 0, V, Angle.ofRad (π / 2), 0, 0⟩ : CtraState) (diagonal d)
    (dt := T) (α := 1) (β := 1) (κ := 2) (N := 8) (by norm_num) (by norm_num)
  refine ⟨x, C, h, ?_⟩
  obtain ⟨h0, h1⟩ := hx 0 (by decide)
  have hg : (Angle.ofRad (π / 2)).getAngle = π / 2 :=
    Angle.getAngle_ofRad_of_range ⟨by positivity, by linarith [pi_pos]⟩
  have e : ∀ p : CtraState, MotionModel.toVec (MotionModel.next p T) 0 = (p.next T).x := fun _ => rfl
  have hturn : ∀ a : ℝ, (CtraState.next ⟨0, 0, V, Angle.ofRad (π / 2 + a), 0, 0⟩ T).x = -(V * T * sin a) := by
    intro a
    rw [ctra_next_x, if_pos unitsEq_zero_zero, add_comm (π / 2), cos_add_pi_div_two]
    ring
  have hturn' : ∀ a : ℝ, (CtraState.next ⟨0, 0, V, Angle.ofRad (π / 2 - a), 0, 0⟩ T).x = V * T * sin a := by
    intro a
    rw [sub_eq_add_neg, hturn, sin_neg]
    ring
  have hz : (CtraState.next ⟨0, 0, V, Angle.ofRad (π / 2), 0, 0⟩ T).x = 0 := ctra_next_x_ahead _ _ _ _ _
  set a : Fin 6 → ℝ := ![√8 * √(d 0), 0, 0, -(V * T * sin (√8 * √(d 3))), aside V (√8 * √(d 4)) T, 0] with ha
  have key : ∀ j, (CtraState.next (MotionModel.add (⟨0, 0, V, Angle.ofRad (π / 2), 0, 0⟩ : CtraState)
        (MotionModel.ofVec (√8 • (diagonal fun i => √(d i)).col j))) T).x = a j ∧
      (CtraState.next (MotionModel.sub (⟨0, 0, V, Angle.ofRad (π / 2), 0, 0⟩ : CtraState)
        (MotionModel.ofVec (√8 • (diagonal fun i => √(d i)).col j))) T).x = -a j := by
    intro j
    rw [ctra_add_vec, ctra_sub_vec]
    simp only [diagonal_col, hg]
    fin_cases j
    · simp [ctra_next_x_ahead, ha]
    · simp [ctra_next_x_ahead, ha]
    · simp [ctra_next_x_ahead, ha]
    · simp [hturn, hturn', ha]
    · simp [ctra_next_x_north, aside_neg, ha]
    · simp [ctra_next_x_ahead, ha]
  unfold sigmaSum at h0 h1
  rw [hchol.diagonal hd] at h0 h1
  simp only [e, hz, sub_zero, key, neg_sq] at h0 h1
  refine ⟨by rw [h0]; simp, ?_⟩
  rw [h1]
  have h7 : √8 ^ 2 = (8 : ℝ) := Real.sq_sqrt (by norm_num)
  have h8 : √(d 0) ^ 2 = d 0 := Real.sq_sqrt (hd 0).le
  rw [Fin.sum_univ_six, show a 0 = √8 * √(d 0) from rfl, show a 1 = 0 from rfl, show a 2 = 0 from rfl,
    show a 3 = -(V * T * sin (√8 * √(d 3))) from rfl, show a 4 = aside V (√8 * √(d 4)) T from rfl,
    show a 5 = 0 from rfl, mul_pow √8, h7, h8]
  ring

end Mot
