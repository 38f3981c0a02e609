import Verif.Proofs.Frames
import Verif.Proofs.Fusing
import Verif.Proofs.Cholesky
import Mathlib.Tactic.FinCases
/-!
# Lemmas about linear changes of the coordinate frame
-/

set_option linter.unusedSectionVars false

namespace Mot

open Matrix Spec Real

section
variable {n : ℕ} {R R' : Matrix (Fin n) (Fin n) ℝ}

theorem conj_isUnit (h : R' * R = 1) {P : Matrix (Fin n) (Fin n) ℝ} :
    IsUnit (R * P * Rᵀ).det ↔ IsUnit P.det := by
  have hR : IsUnit R.det := by
    have := congrArg det h
    rw [det_mul, det_one, mul_comm] at this
    exact IsUnit.of_mul_eq_one _ this
  rw [det_mul, det_mul, det_transpose]
  constructor
  · intro hu
    exact (IsUnit.mul_iff.1 (IsUnit.mul_iff.1 hu).1).2
  · exact fun hu => (hR.mul hu).mul hR

theorem conj_inv (h : R' * R = 1) (P : Matrix (Fin n) (Fin n) ℝ) :
    (R * P * Rᵀ)⁻¹ = R'ᵀ * P⁻¹ * R' := by
  have hi : R⁻¹ = R' := inv_eq_left_inv h
  rw [Matrix.mul_inv_rev, Matrix.mul_inv_rev, ← transpose_nonsing_inv, hi, Matrix.mul_assoc]

theorem conj_inverse? (h : R' * R = 1) (P : Matrix (Fin n) (Fin n) ℝ) :
    inverse? (R * P * Rᵀ) = (inverse? P).map fun A => R'ᵀ * A * R' := by
  unfold inverse?
  by_cases hu : IsUnit P.det
  · rw [if_pos hu, if_pos ((conj_isUnit h).2 hu), conj_inv h]; rfl
  · rw [if_neg hu, if_neg (mt (conj_isUnit h).1 hu)]; rfl

theorem conj_generateWeight (h : R' * R = 1) (A B : Matrix (Fin n) (Fin n) ℝ) :
    generateWeight (R'ᵀ * A * R') (R'ᵀ * B * R') = generateWeight A B := by
  have hne : R'.det ≠ 0 := by
    have := congrArg det h
    rw [det_mul, det_one] at this
    exact left_ne_zero_of_mul_eq_one this
  have hk : R'.det * R'.det ≠ 0 := mul_ne_zero hne hne
  have hd : ∀ M : Matrix (Fin n) (Fin n) ℝ, (R'ᵀ * M * R').det = R'.det * R'.det * M.det := by
    intro M
    rw [det_mul, det_mul, det_transpose]; ring
  unfold generateWeight
  have hs : R'ᵀ * A * R' + R'ᵀ * B * R' = R'ᵀ * (A + B) * R' := by
    rw [Matrix.mul_add, Matrix.add_mul]
  simp only [hs, hd]
  by_cases h0 : (A + B).det = 0
  · rw [if_pos h0, if_pos (by rw [h0, mul_zero])]
  · rw [if_neg h0, if_neg (mul_ne_zero hk h0)]
    congr 1
    field_simp

theorem conj_combine (A B : Matrix (Fin n) (Fin n) ℝ) (w : ℝ) :
    w • (R'ᵀ * A * R') + (1 - w) • (R'ᵀ * B * R') = R'ᵀ * (w • A + (1 - w) • B) * R' := by
  rw [Matrix.mul_add, Matrix.add_mul, Matrix.mul_smul, Matrix.mul_smul, Matrix.smul_mul,
    Matrix.smul_mul]

theorem conj_mean (h : R' * R = 1) {A B : Matrix (Fin n) (Fin n) ℝ} {w : ℝ}
    (hu : IsUnit (w • A + (1 - w) • B).det) (c u v : Fin n → ℝ) :
    (R * (w • A + (1 - w) • B)⁻¹ * Rᵀ) *ᵥ (w • (R'ᵀ * A * R') *ᵥ (R *ᵥ u + c) +
      (1 - w) • (R'ᵀ * B * R') *ᵥ (R *ᵥ v + c)) =
    R *ᵥ ((w • A + (1 - w) • B)⁻¹ *ᵥ (w • A *ᵥ u + (1 - w) • B *ᵥ v)) + c := by
  have h' : R * R' = 1 := mul_eq_one_comm.1 h
  have ht : Rᵀ * R'ᵀ = 1 := by rw [← transpose_mul, h, transpose_one]
  have e : ∀ M : Matrix (Fin n) (Fin n) ℝ, ∀ x : Fin n → ℝ,
      (R'ᵀ * M * R') *ᵥ (R *ᵥ x + c) = R'ᵀ *ᵥ (M *ᵥ (x + R' *ᵥ c)) := by
    intro M x
    rw [mulVec_add, mulVec_mulVec, Matrix.mul_assoc, h, Matrix.mul_one, ← mulVec_mulVec,
      mulVec_add, mulVec_add, mulVec_mulVec, mulVec_mulVec, mulVec_mulVec]
  have e1 : w • R'ᵀ *ᵥ (A *ᵥ (u + R' *ᵥ c)) + (1 - w) • R'ᵀ *ᵥ (B *ᵥ (v + R' *ᵥ c)) =
      R'ᵀ *ᵥ (w • A *ᵥ (u + R' *ᵥ c) + (1 - w) • B *ᵥ (v + R' *ᵥ c)) := by
    generalize A *ᵥ (u + R' *ᵥ c) = x
    generalize B *ᵥ (v + R' *ᵥ c) = y
    rw [mulVec_add, mulVec_smul, mulVec_smul]
  rw [e, e, e1, mulVec_mulVec, Matrix.mul_assoc, ht, Matrix.mul_one, ← mulVec_mulVec]
  have e2 : w • A *ᵥ (u + R' *ᵥ c) + (1 - w) • B *ᵥ (v + R' *ᵥ c) =
      (w • A *ᵥ u + (1 - w) • B *ᵥ v) + (w • A + (1 - w) • B) *ᵥ (R' *ᵥ c) := by
    rw [mulVec_add, mulVec_add, add_mulVec, smul_mulVec, smul_mulVec]
    module
  rw [e2, mulVec_add, mulVec_add, mulVec_mulVec (M := (w • A + (1 - w) • B)⁻¹),
    nonsing_inv_mul _ hu, one_mulVec, mulVec_mulVec c, h', one_mulVec]

/-- fusion commutes with a change of coordinates that is affine on the state vectors -/
theorem fusePair_affine {S : Type} [MotionModel S n] (h : R' * R = 1) {c : Fin n → ℝ}
    {t d t' d' : DynObj S (Matrix (Fin n) (Fin n) ℝ)}
    (ht : t'.covariance = R * t.covariance * Rᵀ) (hd : d'.covariance = R * d.covariance * Rᵀ)
    (hvt : rotateYaw (MotionModel.toVec t'.state) = R *ᵥ rotateYaw (MotionModel.toVec t.state) + c)
    (hvd : rotateYaw (MotionModel.toVec d'.state) = R *ᵥ rotateYaw (MotionModel.toVec d.state) + c) :
    (∃ w, fusePair t d = .ub w ∧ fusePair t' d' = .ub w) ∨
    ∃ m C, fusePair t d = .ok { t with timestamp := d.timestamp, state := MotionModel.ofVec m, covariance := C } ∧
      fusePair t' d' = .ok { t' with timestamp := d'.timestamp, state := MotionModel.ofVec (R *ᵥ m + c), covariance := R * C * Rᵀ } := by
  unfold fusePair
  rw [ht, hd, conj_inverse? h, conj_inverse? h]
  rcases inverse? t.covariance with _ | A
  · exact .inl ⟨_, rfl, rfl⟩
  rcases inverse? d.covariance with _ | B
  · exact .inl ⟨_, rfl, rfl⟩
  simp only [Option.map_some, conj_generateWeight h]
  rcases generateWeight A B with _ | w
  · exact .inl ⟨_, rfl, rfl⟩
  simp only
  unfold covIntersection
  simp only [hvt, hvd, conj_combine]
  have hT : Rᵀ * R'ᵀ = 1 := by rw [← transpose_mul, h, transpose_one]
  have hRT : R * R' = 1 := mul_eq_one_comm.1 h
  have hTt : R'ᵀ * Rᵀ = 1 := by rw [← transpose_mul, hRT, transpose_one]
  have hunit : IsUnit (w • (R'ᵀ * A * R') + (1 - w) • (R'ᵀ * B * R')).det ↔
      IsUnit (w • A + (1 - w) • B).det := by
    rw [conj_combine]
    have := conj_isUnit (R := R'ᵀ) (R' := Rᵀ) hT (P := w • A + (1 - w) • B)
    rwa [transpose_transpose] at this
  have hinv : (R'ᵀ * (w • A + (1 - w) • B) * R')⁻¹ = R * (w • A + (1 - w) • B)⁻¹ * Rᵀ := by
    have := conj_inv (R := R'ᵀ) (R' := Rᵀ) hT (w • A + (1 - w) • B)
    rwa [transpose_transpose, transpose_transpose] at this
  by_cases hu : IsUnit (w • A + (1 - w) • B).det
  · rw [if_pos hu, if_pos (hunit.2 hu), hinv, conj_mean h hu]
    exact .inr ⟨_, _, rfl, rfl⟩
  · rw [if_neg hu, if_neg (mt hunit.1 hu)]
    exact .inl ⟨_, rfl, rfl⟩

end

/-! ## Rotations -/

theorem Angle.ofRad_getAngle_add (x y : ℝ) :
    Angle.ofRad ((Angle.ofRad x).getAngle + y) = Angle.ofRad (x + y) :=
  Angle.ofRad_eq_iff.2 ((Angle.sameDir_getAngle x).add (SameDir.refl y))

theorem Angle.add_ofRad' (a : Angle) (x : ℝ) : a.add (Angle.ofRad x) = Angle.ofRad (a.getAngle + x) :=
  Angle.ofRad_eq_iff.2 ((SameDir.refl _).add (Angle.sameDir_getAngle x))

/-- adding and turning commute -/
theorem Angle.turn_add (a : Angle) (φ x : ℝ) :
    (Angle.ofRad (a.getAngle + φ)).add (Angle.ofRad x) =
      Angle.ofRad ((a.add (Angle.ofRad x)).getAngle + φ) := by
  rw [Angle.add_ofRad, Angle.add_ofRad', Angle.ofRad_getAngle_add, add_right_comm]

theorem CtrvState.next_turned (φ : ℝ) (s : CtrvState) (t : ℝ) :
    (turn φ s).next t = turn φ (s.next t) := by
  have hd : SameDir (turn φ s).yaw.getAngle (s.yaw.getAngle + φ) := Angle.sameDir_getAngle _
  have hd' : SameDir ((turn φ s).yaw.getAngle + s.yawRate * t)
      (s.yaw.getAngle + s.yawRate * t + φ) := by
    rw [add_right_comm]
    exact hd.add (SameDir.refl _)
  have hr : (turn φ s).yawRate = s.yawRate := rfl
  have hv : (turn φ s).v = s.v := rfl
  have hx : (turn φ s).x = cos φ * s.x - sin φ * s.y := rfl
  have hy : (turn φ s).y = sin φ * s.x + cos φ * s.y := rfl
  refine CtrvState.ext' ?_ ?_ rfl (Angle.turn_add _ _ _) rfl
  · show _ = cos φ * (s.next t).x - sin φ * (s.next t).y
    by_cases h : unitsEq s.yawRate 0
    · rw [(next_straight h t).1, (next_straight h t).2, (next_straight (s := turn φ s) h t).1,
        hd.cos_eq, cos_add, hv, hx]
      ring
    · rw [(next_turn h t).1, (next_turn h t).2, (next_turn (s := turn φ s) h t).1, hr,
        hd'.sin_eq, hd.sin_eq, sin_add _ φ, sin_add _ φ, hv, hx]
      ring
  · show _ = sin φ * (s.next t).x + cos φ * (s.next t).y
    by_cases h : unitsEq s.yawRate 0
    · rw [(next_straight h t).1, (next_straight h t).2, (next_straight (s := turn φ s) h t).2,
        hd.sin_eq, sin_add, hv, hy]
      ring
    · rw [(next_turn h t).1, (next_turn h t).2, (next_turn (s := turn φ s) h t).2, hr,
        hd'.cos_eq, hd.cos_eq, cos_add _ φ, cos_add _ φ, hv, hy]
      ring

theorem CtraState.next_turned (φ : ℝ) (s : CtraState) (t : ℝ) :
    (turn φ s).next t = turn φ (s.next t) := by
  have hd : SameDir (turn φ s).yaw.getAngle (s.yaw.getAngle + φ) := Angle.sameDir_getAngle _
  have hd' : SameDir ((turn φ s).yaw.getAngle + s.yawRate * t)
      (s.yaw.getAngle + s.yawRate * t + φ) := by
    rw [add_right_comm]
    exact hd.add (SameDir.refl _)
  have hr : (turn φ s).yawRate = s.yawRate := rfl
  have hv : (turn φ s).v = s.v := rfl
  have ha : (turn φ s).a = s.a := rfl
  have hx : (turn φ s).x = cos φ * s.x - sin φ * s.y := rfl
  have hy : (turn φ s).y = sin φ * s.x + cos φ * s.y := rfl
  refine CtraState.ext' ?_ ?_ rfl (Angle.turn_add _ _ _) rfl rfl
  · show _ = cos φ * (s.next t).x - sin φ * (s.next t).y
    by_cases h : unitsEq s.yawRate 0
    · rw [(next_straight h t).1, (next_straight h t).2, (next_straight (s := turn φ s) h t).1,
        hd.cos_eq, cos_add, hv, hx, ha]
      ring
    · rw [(next_turn h t).1, (next_turn h t).2, (next_turn (s := turn φ s) h t).1, hr,
        hd'.sin_eq, hd.sin_eq, hd'.cos_eq, hd.cos_eq, sin_add _ φ, sin_add _ φ, cos_add _ φ,
        cos_add _ φ, hv, hx, ha]
      ring
  · show _ = sin φ * (s.next t).x + cos φ * (s.next t).y
    by_cases h : unitsEq s.yawRate 0
    · rw [(next_straight h t).1, (next_straight h t).2, (next_straight (s := turn φ s) h t).2,
        hd.sin_eq, sin_add, hv, hy, ha]
      ring
    · rw [(next_turn h t).1, (next_turn h t).2, (next_turn (s := turn φ s) h t).2, hr,
        hd'.sin_eq, hd.sin_eq, hd'.cos_eq, hd.cos_eq, sin_add _ φ, sin_add _ φ, cos_add _ φ,
        cos_add _ φ, hv, hy, ha]
      ring

/-! ## Mirror images -/

theorem unitsEq_neg_zero {ω : ℝ} : unitsEq (-ω) 0 ↔ unitsEq ω 0 := by
  rw [unitsEq_zero_iff, unitsEq_zero_iff, abs_neg]

theorem SameDir.neg {x y : ℝ} (h : SameDir x y) : SameDir (-x) (-y) := by
  obtain ⟨k, rfl⟩ := h
  exact ⟨-k, by push_cast; ring⟩

theorem Angle.mirror_add (a : Angle) (x : ℝ) :
    (Angle.ofRad (-a.getAngle)).add (Angle.ofRad (-x)) =
      Angle.ofRad (-(a.add (Angle.ofRad x)).getAngle) := by
  rw [Angle.add_ofRad, Angle.add_ofRad', Angle.ofRad_eq_iff]
  have := (Angle.sameDir_getAngle (a.getAngle + x)).neg.symm
  rwa [neg_add] at this

theorem CtrvState.next_mirror (s : CtrvState) (t : ℝ) :
    (mirror s).next t = mirror (s.next t) := by
  have hd : SameDir (mirror s).yaw.getAngle (-s.yaw.getAngle) := Angle.sameDir_getAngle _
  have hd' : SameDir ((mirror s).yaw.getAngle + -s.yawRate * t)
      (-(s.yaw.getAngle + s.yawRate * t)) := by
    have : -(s.yaw.getAngle + s.yawRate * t) = -s.yaw.getAngle + -s.yawRate * t := by ring
    rw [this]
    exact hd.add (SameDir.refl _)
  have hr : (mirror s).yawRate = -s.yawRate := rfl
  have hv : (mirror s).v = s.v := rfl
  have hx : (mirror s).x = s.x := rfl
  have hy : (mirror s).y = -s.y := rfl
  refine CtrvState.ext' ?_ ?_ rfl ?_ rfl
  · show _ = (s.next t).x
    by_cases h : unitsEq s.yawRate 0
    · rw [(next_straight h t).1, (next_straight (s := mirror s) (unitsEq_neg_zero.2 h) t).1,
        hd.cos_eq, cos_neg, hv, hx]
    · rw [(next_turn h t).1, (next_turn (s := mirror s) (mt unitsEq_neg_zero.1 h) t).1, hr,
        hd'.sin_eq, hd.sin_eq, sin_neg, sin_neg, hv, hx, div_neg]
      ring
  · show _ = -(s.next t).y
    by_cases h : unitsEq s.yawRate 0
    · rw [(next_straight h t).2, (next_straight (s := mirror s) (unitsEq_neg_zero.2 h) t).2,
        hd.sin_eq, sin_neg, hv, hy]
      ring
    · rw [(next_turn h t).2, (next_turn (s := mirror s) (mt unitsEq_neg_zero.1 h) t).2, hr,
        hd'.cos_eq, hd.cos_eq, cos_neg, cos_neg, hv, hy, div_neg]
      ring
  · show (Angle.ofRad (-s.yaw.getAngle)).add (Angle.ofRad (-s.yawRate * t)) = _
    rw [neg_mul]
    exact Angle.mirror_add _ _

theorem CtraState.next_mirror (s : CtraState) (t : ℝ) :
    (mirror s).next t = mirror (s.next t) := by
  have hd : SameDir (mirror s).yaw.getAngle (-s.yaw.getAngle) := Angle.sameDir_getAngle _
  have hd' : SameDir ((mirror s).yaw.getAngle + -s.yawRate * t)
      (-(s.yaw.getAngle + s.yawRate * t)) := by
    have : -(s.yaw.getAngle + s.yawRate * t) = -s.yaw.getAngle + -s.yawRate * t := by ring
    rw [this]
    exact hd.add (SameDir.refl _)
  have hr : (mirror s).yawRate = -s.yawRate := rfl
  have hv : (mirror s).v = s.v := rfl
  have ha : (mirror s).a = s.a := rfl
  have hx : (mirror s).x = s.x := rfl
  have hy : (mirror s).y = -s.y := rfl
  refine CtraState.ext' ?_ ?_ rfl ?_ rfl rfl
  · show _ = (s.next t).x
    by_cases h : unitsEq s.yawRate 0
    · rw [(next_straight h t).1, (next_straight (s := mirror s) (unitsEq_neg_zero.2 h) t).1,
        hd.cos_eq, cos_neg, hv, hx, ha]
    · rw [(next_turn h t).1, (next_turn (s := mirror s) (mt unitsEq_neg_zero.1 h) t).1, hr,
        hd'.sin_eq, hd.sin_eq, hd'.cos_eq, hd.cos_eq, sin_neg, sin_neg, cos_neg, cos_neg, hv, hx, ha,
        neg_mul_neg]
      ring
  · show _ = -(s.next t).y
    by_cases h : unitsEq s.yawRate 0
    · rw [(next_straight h t).2, (next_straight (s := mirror s) (unitsEq_neg_zero.2 h) t).2,
        hd.sin_eq, sin_neg, hv, hy, ha]
      ring
    · rw [(next_turn h t).2, (next_turn (s := mirror s) (mt unitsEq_neg_zero.1 h) t).2, hr,
        hd'.sin_eq, hd.sin_eq, hd'.cos_eq, hd.cos_eq, sin_neg, sin_neg, cos_neg, cos_neg, hv, hy, ha,
        neg_mul_neg]
      ring
  · show (Angle.ofRad (-s.yaw.getAngle)).add (Angle.ofRad (-s.yawRate * t)) = _
    rw [neg_mul]
    exact Angle.mirror_add _ _

/-! ## Units of length -/

theorem CtrvState.next_rescale (k : ℝ) (s : CtrvState) (t : ℝ) :
    (rescale k s).next t = rescale k (s.next t) := by
  have hr : (rescale k s).yawRate = s.yawRate := rfl
  have hv : (rescale k s).v = k * s.v := rfl
  have hx : (rescale k s).x = k * s.x := rfl
  have hy : (rescale k s).y = k * s.y := rfl
  have hw : (rescale k s).yaw = s.yaw := rfl
  refine CtrvState.ext' ?_ ?_ rfl rfl rfl
  · show _ = k * (s.next t).x
    by_cases h : unitsEq s.yawRate 0
    · rw [(next_straight h t).1, (next_straight (s := rescale k s) h t).1, hv, hx, hw]
      ring
    · rw [(next_turn h t).1, (next_turn (s := rescale k s) h t).1, hv, hx, hw, hr]
      ring
  · show _ = k * (s.next t).y
    by_cases h : unitsEq s.yawRate 0
    · rw [(next_straight h t).2, (next_straight (s := rescale k s) h t).2, hv, hy, hw]
      ring
    · rw [(next_turn h t).2, (next_turn (s := rescale k s) h t).2, hv, hy, hw, hr]
      ring

theorem CtraState.next_rescale (k : ℝ) (s : CtraState) (t : ℝ) :
    (rescale k s).next t = rescale k (s.next t) := by
  have hr : (rescale k s).yawRate = s.yawRate := rfl
  have hv : (rescale k s).v = k * s.v := rfl
  have ha : (rescale k s).a = k * s.a := rfl
  have hx : (rescale k s).x = k * s.x := rfl
  have hy : (rescale k s).y = k * s.y := rfl
  have hw : (rescale k s).yaw = s.yaw := rfl
  refine CtraState.ext' ?_ ?_ ?_ rfl rfl rfl
  · show _ = k * (s.next t).x
    by_cases h : unitsEq s.yawRate 0
    · rw [(next_straight h t).1, (next_straight (s := rescale k s) h t).1, hv, hx, hw, ha]
      ring
    · rw [(next_turn h t).1, (next_turn (s := rescale k s) h t).1, hv, hx, hw, hr, ha]
      ring
  · show _ = k * (s.next t).y
    by_cases h : unitsEq s.yawRate 0
    · rw [(next_straight h t).2, (next_straight (s := rescale k s) h t).2, hv, hy, hw, ha]
      ring
    · rw [(next_turn h t).2, (next_turn (s := rescale k s) h t).2, hv, hy, hw, hr, ha]
      ring
  · show k * s.v + k * s.a * t = k * (s.v + s.a * t)
    ring

end Mot

namespace Mot

open Matrix Spec Real

/-! ## State vectors -/

theorem turnMatrix_neg_mul (φ : ℝ) : turnMatrix 5 (-φ) * turnMatrix 5 φ = 1 ∧
    turnMatrix 6 (-φ) * turnMatrix 6 φ = 1 := by
  have h := sin_sq_add_cos_sq φ
  constructor
  · ext i j
    rw [mul_apply, Fin.sum_univ_five]
    fin_cases i <;> fin_cases j <;> simp [turnMatrix] <;> linarith
  · ext i j
    rw [mul_apply, Fin.sum_univ_six]
    fin_cases i <;> fin_cases j <;> simp [turnMatrix] <;> linarith

theorem turnMatrix_orthogonal (φ : ℝ) : turnMatrix 5 φ * (turnMatrix 5 φ)ᵀ = 1 ∧
    turnMatrix 6 φ * (turnMatrix 6 φ)ᵀ = 1 := by
  have h := sin_sq_add_cos_sq φ
  constructor
  · ext i j
    rw [mul_apply, Fin.sum_univ_five]
    fin_cases i <;> fin_cases j <;> simp [turnMatrix] <;> linarith
  · ext i j
    rw [mul_apply, Fin.sum_univ_six]
    fin_cases i <;> fin_cases j <;> simp [turnMatrix] <;> linarith

theorem turnMatrix_mulVec (φ : ℝ) (v : Fin 5 → ℝ) : turnMatrix 5 φ *ᵥ v =
    ![cos φ * v 0 - sin φ * v 1, sin φ * v 0 + cos φ * v 1, v 2, v 3, v 4] := by
  ext i
  rw [mulVec, dotProduct, Fin.sum_univ_five]
  fin_cases i <;> simp [turnMatrix]; ring

theorem turnMatrix_mulVec' (φ : ℝ) (v : Fin 6 → ℝ) : turnMatrix 6 φ *ᵥ v =
    ![cos φ * v 0 - sin φ * v 1, sin φ * v 0 + cos φ * v 1, v 2, v 3, v 4, v 5] := by
  ext i
  rw [mulVec, dotProduct, Fin.sum_univ_six]
  fin_cases i <;> simp [turnMatrix]; ring

theorem ofVec_turned (φ : ℝ) (m : Fin 5 → ℝ) :
    CtrvState.ofVec (turnMatrix 5 φ *ᵥ m + headingVec 5 φ) = turn φ (CtrvState.ofVec m) := by
  rw [turnMatrix_mulVec]
  refine CtrvState.ext' ?_ ?_ ?_ ?_ ?_
  · exact add_zero _
  · exact add_zero _
  · exact add_zero _
  · exact (Angle.ofRad_getAngle_add (m 3) φ).symm
  · exact add_zero _

theorem ofVec_turned' (φ : ℝ) (m : Fin 6 → ℝ) :
    CtraState.ofVec (turnMatrix 6 φ *ᵥ m + headingVec 6 φ) = turn φ (CtraState.ofVec m) := by
  rw [turnMatrix_mulVec']
  refine CtraState.ext' ?_ ?_ ?_ ?_ ?_ ?_
  · exact add_zero _
  · exact add_zero _
  · exact add_zero _
  · exact (Angle.ofRad_getAngle_add (m 3) φ).symm
  · exact add_zero _
  · exact add_zero _

theorem toVec_turned {φ : ℝ} {s : CtrvState} (h : NoWrap φ s.yaw.getAngle) :
    rotateYaw (turn φ s).toVec = turnMatrix 5 φ *ᵥ rotateYaw s.toVec + headingVec 5 φ := by
  rw [turnMatrix_mulVec]
  have hy : (turn φ s).yaw.getAngle = s.yaw.getAngle + φ := Angle.getAngle_ofRad_of_range h.1
  funext i
  fin_cases i
  · exact (add_zero _).symm
  · exact (add_zero _).symm
  · exact (add_zero _).symm
  · show rotateYaw (turn φ s).toVec 3 = rotateYaw s.toVec 3 + φ
    rw [rotateYaw_heading _ _ rfl, rotateYaw_heading _ _ rfl]
    show rotateHeading (turn φ s).yaw.getAngle = rotateHeading s.yaw.getAngle + φ
    rw [hy]
    unfold rotateHeading
    by_cases hc : s.yaw.getAngle ≤ yawCut
    · rw [if_neg (not_lt.2 (h.2.1 hc)), if_neg (not_lt.2 hc)]
    · rw [if_pos (not_le.1 (mt h.2.2 hc)), if_pos (not_le.1 hc)]
      ring
  · exact (add_zero _).symm

theorem toVec_turned' {φ : ℝ} {s : CtraState} (h : NoWrap φ s.yaw.getAngle) :
    rotateYaw (turn φ s).toVec = turnMatrix 6 φ *ᵥ rotateYaw s.toVec + headingVec 6 φ := by
  rw [turnMatrix_mulVec']
  have hy : (turn φ s).yaw.getAngle = s.yaw.getAngle + φ := Angle.getAngle_ofRad_of_range h.1
  funext i
  fin_cases i
  · exact (add_zero _).symm
  · exact (add_zero _).symm
  · exact (add_zero _).symm
  · show rotateYaw (turn φ s).toVec 3 = rotateYaw s.toVec 3 + φ
    rw [rotateYaw_heading _ _ rfl, rotateYaw_heading _ _ rfl]
    show rotateHeading (turn φ s).yaw.getAngle = rotateHeading s.yaw.getAngle + φ
    rw [hy]
    unfold rotateHeading
    by_cases hc : s.yaw.getAngle ≤ yawCut
    · rw [if_neg (not_lt.2 (h.2.1 hc)), if_neg (not_lt.2 hc)]
    · rw [if_pos (not_le.1 (mt h.2.2 hc)), if_pos (not_le.1 hc)]
      ring
  · exact (add_zero _).symm
  · exact (add_zero _).symm

/-! ## Units -/

/-- what the generic proofs use of a change of the unit of length -/
class RescaleLaws (S : Type) (n : outParam ℕ) [MotionModel S n] [Rescalable S] : Prop where
  toVec_rescale : ∀ (k : ℝ) (s : S), MotionModel.toVec (rescale k s) =
    unitMatrix n k *ᵥ MotionModel.toVec s
  ofVec_rescale : ∀ (k : ℝ) (v : Fin n → ℝ), (MotionModel.ofVec (unitMatrix n k *ᵥ v) : S) =
    rescale k (MotionModel.ofVec v)
  add_rescale : ∀ (k : ℝ) (s d : S), MotionModel.add (rescale k s) (rescale k d) =
    rescale k (MotionModel.add s d)
  sub_rescale : ∀ (k : ℝ) (s d : S), MotionModel.sub (rescale k s) (rescale k d) =
    rescale k (MotionModel.sub s d)
  next_rescale : ∀ (k : ℝ) (s : S) (t : ℝ), MotionModel.next (rescale k s) t =
    rescale k (MotionModel.next s t)

theorem unitMatrix_mulVec {n : ℕ} (k : ℝ) (v : Fin n → ℝ) (i : Fin n) :
    (unitMatrix n k *ᵥ v) i = (if i.1 = 3 ∨ i.1 = 4 then 1 else k) * v i :=
  mulVec_diagonal _ _ _

theorem unitMatrix_inv {n : ℕ} {k : ℝ} (hk : k ≠ 0) :
    unitMatrix n k⁻¹ * unitMatrix n k = 1 := by
  unfold unitMatrix
  rw [diagonal_mul_diagonal, ← diagonal_one]
  congr 1
  funext i
  split
  · exact one_mul 1
  · exact inv_mul_cancel₀ hk

instance rescaleLawsCtrv : RescaleLaws CtrvState 5 where
  toVec_rescale k s := by
    funext i
    rw [unitMatrix_mulVec]
    fin_cases i
    · rfl
    · rfl
    · rfl
    · exact (one_mul _).symm
    · exact (one_mul _).symm
  ofVec_rescale k v := by
    refine CtrvState.ext' ?_ ?_ ?_ ?_ ?_
    · exact unitMatrix_mulVec k v 0
    · exact unitMatrix_mulVec k v 1
    · exact unitMatrix_mulVec k v 2
    · exact congrArg Angle.ofRad ((unitMatrix_mulVec k v 3).trans (one_mul _))
    · exact (unitMatrix_mulVec k v 4).trans (one_mul _)
  add_rescale k s d := CtrvState.ext' (mul_add _ _ _).symm (mul_add _ _ _).symm (mul_add _ _ _).symm
    rfl rfl
  sub_rescale k s d := CtrvState.ext' (mul_sub _ _ _).symm (mul_sub _ _ _).symm (mul_sub _ _ _).symm
    rfl rfl
  next_rescale := CtrvState.next_rescale

instance rescaleLawsCtra : RescaleLaws CtraState 6 where
  toVec_rescale k s := by
    funext i
    rw [unitMatrix_mulVec]
    fin_cases i
    · rfl
    · rfl
    · rfl
    · exact (one_mul _).symm
    · exact (one_mul _).symm
    · rfl
  ofVec_rescale k v := by
    refine CtraState.ext' ?_ ?_ ?_ ?_ ?_ ?_
    · exact unitMatrix_mulVec k v 0
    · exact unitMatrix_mulVec k v 1
    · exact unitMatrix_mulVec k v 2
    · exact congrArg Angle.ofRad ((unitMatrix_mulVec k v 3).trans (one_mul _))
    · exact (unitMatrix_mulVec k v 4).trans (one_mul _)
    · exact unitMatrix_mulVec k v 5
  add_rescale k s d := CtraState.ext' (mul_add _ _ _).symm (mul_add _ _ _).symm (mul_add _ _ _).symm
    rfl rfl (mul_add _ _ _).symm
  sub_rescale k s d := CtraState.ext' (mul_sub _ _ _).symm (mul_sub _ _ _).symm (mul_sub _ _ _).symm
    rfl rfl (mul_sub _ _ _).symm
  next_rescale := CtraState.next_rescale

theorem rotateYaw_rescale {n : ℕ} (k : ℝ) (v : Fin n → ℝ) :
    rotateYaw (unitMatrix n k *ᵥ v) = unitMatrix n k *ᵥ rotateYaw v := by
  funext i
  rw [unitMatrix_mulVec]
  unfold rotateYaw
  rw [unitMatrix_mulVec]
  by_cases h : i.1 = 3
  · simp [h]
  · simp [h]

theorem computeUt_linear {n : ℕ} (M : Matrix (Fin n) (Fin n) ℝ) (rows : List (Fin n → ℝ))
    (wm wc : List ℝ) : computeUt (rows.map (M *ᵥ ·)) wm wc =
      onResult (fun y => (M *ᵥ y.1, M * y.2 * Mᵀ)) (computeUt rows wm wc) := by
  have hsum : ∀ (w : List ℝ) (l : List (Fin n → ℝ)),
      (List.zipWith (fun (w : ℝ) (p : Fin n → ℝ) => w • p) w (l.map (M *ᵥ ·))).sum =
        M *ᵥ (List.zipWith (fun (w : ℝ) (p : Fin n → ℝ) => w • p) w l).sum := by
    intro w
    induction w with
    | nil => intro l; simp
    | cons a w ih =>
      intro l
      cases l with
      | nil => simp
      | cons p l =>
        simp only [List.map_cons, List.zipWith_cons_cons, List.sum_cons, ih, mulVec_add, mulVec_smul]
  have houter : ∀ p : Fin n → ℝ, ∀ a : ℝ, vecMulVec (M *ᵥ p) (a • (M *ᵥ p)) =
      M * vecMulVec p (a • p) * Mᵀ := by
    intro p a
    rw [Matrix.mul_vecMulVec, Matrix.vecMulVec_mul, vecMul_transpose, mulVec_smul]
  have hcov : ∀ (w : List ℝ) (l : List (Fin n → ℝ)) (x : Fin n → ℝ),
      (List.zipWith (fun (w : ℝ) (p : Fin n → ℝ) => vecMulVec p (w • p)) w
        (List.zipWith (fun p q => p - q) (l.map (M *ᵥ ·)) (List.replicate l.length (M *ᵥ x)))).sum =
        M * (List.zipWith (fun (w : ℝ) (p : Fin n → ℝ) => vecMulVec p (w • p)) w
          (List.zipWith (fun p q => p - q) l (List.replicate l.length x))).sum * Mᵀ := by
    intro w
    induction w with
    | nil => intro l x; simp
    | cons a w ih =>
      intro l x
      cases l with
      | nil => simp
      | cons p l =>
        simp only [List.map_cons, List.length_cons, List.replicate_succ, List.zipWith_cons_cons,
          List.sum_cons, ih]
        rw [← mulVec_sub, houter, Matrix.mul_add, Matrix.add_mul]
  unfold computeUt
  rw [List.length_map]
  split
  · simp only [onResult, stackVector, hsum, hcov]
  · rfl

theorem llt_rescale {chol : Chol} (hchol : IsLlt chol) {n : ℕ} {P : Matrix (Fin n) (Fin n) ℝ}
    (hP : P.PosDef) {k : ℝ} (hk : 0 < k) :
    chol n (unitMatrix n k * P * (unitMatrix n k)ᵀ) = unitMatrix n k * chol n P := by
  have hL := hchol n P hP
  have hpos : ∀ i : Fin n, 0 < (if i.1 = 3 ∨ i.1 = 4 then (1 : ℝ) else k) := by
    intro i; split
    · exact one_pos
    · exact hk
  have h : IsCholesky (unitMatrix n k * chol n P) (unitMatrix n k * P * (unitMatrix n k)ᵀ) := by
    refine ⟨?_, ?_, ?_⟩
    · intro i j hij
      unfold unitMatrix
      rw [diagonal_mul, hL.lower i j hij, mul_zero]
    · intro i
      unfold unitMatrix
      rw [diagonal_mul]
      exact mul_pos (hpos i) (hL.diag i)
    · rw [transpose_mul, Matrix.mul_assoc, ← Matrix.mul_assoc (chol n P), hL.factor, Matrix.mul_assoc]
  exact (hchol n _ h.posDef).unique h

section
variable {S : Type} {n : ℕ} [MotionModel S n] [Rescalable S] [RescaleLaws S n]

theorem sigmaLoop_rescale (k : ℝ) (s : S) (L : Matrix (Fin n) (Fin n) ℝ) (r : ℝ) :
    sigmaLoop (rescale k s) (unitMatrix n k * L) r = (sigmaLoop s L r).map (rescale k) := by
  unfold sigmaLoop
  rw [List.map_flatMap]
  congr 1
  funext j
  have : r • (unitMatrix n k * L).col j = unitMatrix n k *ᵥ (r • L.col j) := by
    rw [mulVec_smul]; rfl
  simp only [this, RescaleLaws.ofVec_rescale, RescaleLaws.add_rescale, RescaleLaws.sub_rescale,
    List.map_cons, List.map_nil]

theorem ukfPredict_rescale {chol : Chol} (hchol : IsLlt chol) {k : ℝ} (hk : 0 < k) (s : S)
    {P : Matrix (Fin n) (Fin n) ℝ} (hP : P.PosDef) (dt α β κ : ℝ) :
    ukfPredict chol (rescale k s) (unitMatrix n k * P * (unitMatrix n k)ᵀ) dt α β κ =
      onResult (fun y => (rescale k y.1, unitMatrix n k * y.2 * (unitMatrix n k)ᵀ))
        (ukfPredict chol s P dt α β κ) := by
  by_cases hN : 0 < α ^ 2 * (n + κ)
  · rw [ukfPredict_eq _ _ _ _ _ _ _ hN, ukfPredict_eq _ _ _ _ _ _ _ hN]
    have hr : ∀ r, predictedRows (rescale k s) (unitMatrix n k * chol n P) r dt =
        (predictedRows s (chol n P) r dt).map (unitMatrix n k *ᵥ ·) := by
      intro r
      have h : ∀ x : S, rotateYaw (MotionModel.toVec (MotionModel.next (rescale k x) dt)) =
          unitMatrix n k *ᵥ rotateYaw (MotionModel.toVec (MotionModel.next x dt)) := fun x => by
        rw [RescaleLaws.next_rescale, RescaleLaws.toVec_rescale, rotateYaw_rescale]
      unfold predictedRows
      rw [sigmaLoop_rescale]
      simp only [List.map_cons, List.map_map, h]
      congr 1
      apply List.map_congr_left
      intro x _
      exact h x
    rw [llt_rescale hchol hP hk, hr, computeUt_linear]
    generalize computeUt _ _ _ = r
    rcases r with ⟨x, C⟩ | e | w
    · simp only [onResult, RescaleLaws.ofVec_rescale]
    · rfl
    · rfl
  · rw [ukfPredict_notReal _ _ _ _ _ _ _ (not_lt.1 hN),
      ukfPredict_notReal _ _ _ _ _ _ _ (not_lt.1 hN)]
    rfl

theorem fusePair_rescale {k : ℝ} (hk : k ≠ 0) (t d : DynObj S (Matrix (Fin n) (Fin n) ℝ)) :
    fusePair (rescale k t) (rescale k d) = onResult (rescale k) (fusePair t d) := by
  have hv : ∀ o : DynObj S (Matrix (Fin n) (Fin n) ℝ),
      rotateYaw (MotionModel.toVec (rescale k o).state) =
        unitMatrix n k *ᵥ rotateYaw (MotionModel.toVec o.state) + 0 := fun o => by
    rw [add_zero]
    have : MotionModel.toVec (rescale k o).state = _ := RescaleLaws.toVec_rescale k o.state
    rw [this, rotateYaw_rescale]
  rcases fusePair_affine (unitMatrix_inv hk) (t := t) (d := d) (t' := rescale k t)
    (d' := rescale k d) rfl rfl (hv t) (hv d) with ⟨w, h1, h2⟩ | ⟨m, C, h1, h2⟩
  · rw [h1, h2]; rfl
  · rw [h1, h2, add_zero, RescaleLaws.ofVec_rescale]; rfl

end

/-! ## distances of poses -/

/-- squared Mahalanobis distance after a linear change of coordinates -/
theorem poseMahalanobis_linear {R R' : Matrix (Fin 3) (Fin 3) ℝ} (h : R' * R = 1)
    (C : Matrix (Fin 3) (Fin 3) ℝ) {p q p' q' : Fin 3 → ℝ} (hd : p' - q' = R *ᵥ (p - q)) :
    poseMahalanobis (R * C * Rᵀ) p' q' = poseMahalanobis C p q := by
  have e : ((p' - q') ᵥ* (R * C * Rᵀ)⁻¹) ⬝ᵥ (p' - q') = ((p - q) ᵥ* C⁻¹) ⬝ᵥ (p - q) := by
    rw [hd, conj_inv h, ← dotProduct_mulVec, ← dotProduct_mulVec]
    generalize p - q = d
    rw [mulVec_mulVec, Matrix.mul_assoc, h, Matrix.mul_one, ← mulVec_mulVec, dotProduct_mulVec,
      vecMul_transpose, mulVec_mulVec, h, one_mulVec]
  unfold poseMahalanobis
  simp only
  by_cases hc : IsUnit C.det ∧ 0 ≤ ((p - q) ᵥ* C⁻¹) ⬝ᵥ (p - q)
  · rw [if_pos hc, if_pos (by rw [e]; exact ⟨(conj_isUnit h).2 hc.1, hc.2⟩), e]
  · rw [if_neg hc, if_neg]
    rw [e]
    rintro ⟨h1, h2⟩
    exact hc ⟨(conj_isUnit h).1 h1, h2⟩

/-- rotation of a pose -/
noncomputable def turnPose (φ : ℝ) : Matrix (Fin 3) (Fin 3) ℝ :=
  !![cos φ, -sin φ, 0; sin φ, cos φ, 0; 0, 0, 1]

/-- factors of a pose -/
def unitPose (k : ℝ) : Matrix (Fin 3) (Fin 3) ℝ := !![k, 0, 0; 0, k, 0; 0, 0, 1]

theorem turnPose_neg_mul (φ : ℝ) : turnPose (-φ) * turnPose φ = 1 := by
  have h := sin_sq_add_cos_sq φ
  ext i j
  rw [mul_apply, Fin.sum_univ_three]
  fin_cases i <;> fin_cases j <;> simp [turnPose] <;> linarith

theorem unitPose_inv {k : ℝ} (hk : k ≠ 0) : unitPose k⁻¹ * unitPose k = 1 := by
  ext i j
  rw [mul_apply, Fin.sum_univ_three]
  fin_cases i <;> fin_cases j <;> simp [unitPose, hk]

/-- the rows 0, 1, 3 of `T * P * Tᵀ` -/
theorem conj_block {n : ℕ} (σ : Fin 3 → Fin n) (hσ : Function.Injective σ)
    (T P : Matrix (Fin n) (Fin n) ℝ) (h : ∀ i j, j ∉ Set.range σ → T (σ i) j = 0) :
    (T * P * Tᵀ).submatrix σ σ = T.submatrix σ σ * P.submatrix σ σ * (T.submatrix σ σ)ᵀ := by
  have key : ∀ (i : Fin 3) (f : Fin n → ℝ), ∑ j, T (σ i) j * f j = ∑ a, T (σ i) (σ a) * f (σ a) := by
    intro i f
    rw [← Finset.sum_image (s := Finset.univ) (g := σ) (f := fun j => T (σ i) j * f j)
      fun a _ b _ hab => hσ hab]
    symm
    refine Finset.sum_subset (Finset.subset_univ _) fun j _ hj => ?_
    rw [h i j, zero_mul]
    rintro ⟨a, rfl⟩
    exact hj (Finset.mem_image_of_mem _ (Finset.mem_univ _))
  ext i j
  have e1 : ∀ y, (T * P) (σ i) y = ∑ a, T (σ i) (σ a) * P (σ a) y := fun y => by
    rw [mul_apply, key i fun z => P z y]
  rw [submatrix_apply, mul_apply, mul_apply]
  simp only [transpose_apply, submatrix_apply]
  rw [show ∑ y, (T * P) (σ i) y * T (σ j) y = ∑ y, T (σ j) y * (T * P) (σ i) y from
    Finset.sum_congr rfl fun y _ => mul_comm _ _, key j fun y => (T * P) (σ i) y]
  refine Finset.sum_congr rfl fun b _ => ?_
  rw [e1, mul_comm, mul_apply]
  rfl

theorem ctrvPose_submatrix (P : CtrvCov) : P.pose = Matrix.submatrix P ![0, 1, 3] ![0, 1, 3] := by
  ext i j; fin_cases i <;> fin_cases j <;> rfl

theorem ctraPose_submatrix (P : CtraCov) : P.pose = Matrix.submatrix P ![0, 1, 3] ![0, 1, 3] := by
  ext i j; fin_cases i <;> fin_cases j <;> rfl

theorem pose_turned_cov (φ : ℝ) :
    (∀ P : CtrvCov, CtrvCov.pose (turnMatrix 5 φ * P * (turnMatrix 5 φ)ᵀ) =
      turnPose φ * P.pose * (turnPose φ)ᵀ) ∧
    (∀ P : CtraCov, CtraCov.pose (turnMatrix 6 φ * P * (turnMatrix 6 φ)ᵀ) =
      turnPose φ * P.pose * (turnPose φ)ᵀ) := by
  constructor <;> intro P
  · have hT : (turnMatrix 5 φ).submatrix ![0, 1, 3] ![0, 1, 3] = turnPose φ := by
      ext i j; fin_cases i <;> fin_cases j <;> simp [turnMatrix, turnPose]
    rw [ctrvPose_submatrix, ctrvPose_submatrix, conj_block, hT]
    · decide
    · intro i j hj
      fin_cases i <;> fin_cases j <;> simp [turnMatrix] <;> exact absurd hj (by simp)
  · have hT : (turnMatrix 6 φ).submatrix ![0, 1, 3] ![0, 1, 3] = turnPose φ := by
      ext i j; fin_cases i <;> fin_cases j <;> simp [turnMatrix, turnPose]
    rw [ctraPose_submatrix, ctraPose_submatrix, conj_block, hT]
    · decide
    · intro i j hj
      fin_cases i <;> fin_cases j <;> simp [turnMatrix] <;> exact absurd hj (by simp)

theorem pose_rescaled_cov (k : ℝ) :
    (∀ P : CtrvCov, CtrvCov.pose (unitMatrix 5 k * P * (unitMatrix 5 k)ᵀ) =
      unitPose k * P.pose * (unitPose k)ᵀ) ∧
    (∀ P : CtraCov, CtraCov.pose (unitMatrix 6 k * P * (unitMatrix 6 k)ᵀ) =
      unitPose k * P.pose * (unitPose k)ᵀ) := by
  constructor <;> intro P
  · have hT : (unitMatrix 5 k).submatrix ![0, 1, 3] ![0, 1, 3] = unitPose k := by
      ext i j; fin_cases i <;> fin_cases j <;> simp [unitMatrix, unitPose, diagonal]
    rw [ctrvPose_submatrix, ctrvPose_submatrix, conj_block, hT]
    · decide
    · intro i j hj
      exact diagonal_apply_ne _ fun h => hj ⟨i, h⟩
  · have hT : (unitMatrix 6 k).submatrix ![0, 1, 3] ![0, 1, 3] = unitPose k := by
      ext i j; fin_cases i <;> fin_cases j <;> simp [unitMatrix, unitPose, diagonal]
    rw [ctraPose_submatrix, ctraPose_submatrix, conj_block, hT]
    · decide
    · intro i j hj
      exact diagonal_apply_ne _ fun h => hj ⟨i, h⟩

theorem pose_turned_sub (φ : ℝ) {x y u v a b : ℝ} :
    (![cos φ * x - sin φ * y, sin φ * x + cos φ * y, a + φ] : Fin 3 → ℝ) -
        ![cos φ * u - sin φ * v, sin φ * u + cos φ * v, b + φ] =
      turnPose φ *ᵥ (![x, y, a] - ![u, v, b]) := by
  ext i
  fin_cases i
  · simp [turnPose, mulVec, dotProduct, Fin.sum_univ_three]; ring
  · simp [turnPose, mulVec, dotProduct, Fin.sum_univ_three]; ring
  · simp [turnPose, mulVec, dotProduct, Fin.sum_univ_three]

theorem turnPose_dot (φ : ℝ) (d : Fin 3 → ℝ) :
    (turnPose φ *ᵥ d) ⬝ᵥ (turnPose φ *ᵥ d) = d ⬝ᵥ d := by
  have h := sin_sq_add_cos_sq φ
  simp only [turnPose, mulVec, dotProduct, Fin.sum_univ_three, of_apply, cons_val]
  linear_combination (d 0 ^ 2 + d 1 ^ 2) * h

theorem pose_rescaled_sub (k : ℝ) {x y u v a b : ℝ} :
    (![k * x, k * y, a] : Fin 3 → ℝ) - ![k * u, k * v, b] =
      unitPose k *ᵥ (![x, y, a] - ![u, v, b]) := by
  ext i
  fin_cases i <;> simp [unitPose, mulVec, dotProduct, Fin.sum_univ_three] <;> ring

end Mot
