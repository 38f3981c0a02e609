import Verif.Proofs.Displacement
/-!
# Predicted covariances: singular and positive definite ones
-/

namespace Mot

open Matrix Spec

section
variable {S : Type} {n : ℕ} [MotionModel S n]

theorem dot_vecMulVec {n : ℕ} (u v : Fin n → ℝ) :
    u ⬝ᵥ (vecMulVec v v *ᵥ u) = (u ⬝ᵥ v) ^ 2 := by
  rw [vecMulVec_mulVec, dotProduct_smul, dotProduct_comm v u, op_smul_eq_mul, sq]

theorem dot_sum_vecMulVec {n : ℕ} (u : Fin n → ℝ) (l : List (Fin n → ℝ)) :
    u ⬝ᵥ ((l.map fun v => vecMulVec v v).sum *ᵥ u) = (l.map fun v => (u ⬝ᵥ v) ^ 2).sum := by
  induction l with
  | nil => simp
  | cons v l ih =>
    rw [List.map_cons, List.sum_cons, add_mulVec, dotProduct_add, ih, dot_vecMulVec, List.map_cons,
      List.sum_cons]

theorem sum_sq_zero {l : List ℝ} (h : (l.map fun v => v ^ 2).sum ≤ 0) : ∀ v ∈ l, v = 0 := by
  induction l with
  | nil => intro v hv; cases hv
  | cons a l ih =>
    rw [List.map_cons, List.sum_cons] at h
    have h1 : 0 ≤ (l.map fun v => v ^ 2).sum :=
      List.sum_nonneg fun v hv => by
        obtain ⟨w, -, rfl⟩ := List.mem_map.1 hv
        exact sq_nonneg _
    have h2 := sq_nonneg a
    intro v hv
    rcases List.mem_cons.1 hv with rfl | hv
    · exact pow_eq_zero_iff (two_ne_zero) |>.1 (by linarith)
    · exact ih (by linarith) v hv

/-- The predicted covariance is positive definite if no weight is negative and the differences
of opposite predicted points span the space. -/
theorem ukfPredict_posDef {chol : Chol} {s : S} {P : Matrix (Fin n) (Fin n) ℝ} {dt α β κ : ℝ}
    (hN : 0 < α ^ 2 * (n + κ))
    (hc : 0 ≤ generateLambda n α κ / (α ^ 2 * (n + κ)) + (1 - α ^ 2 + β))
    (hspan : ∀ u : Fin n → ℝ, (∀ j, u ⬝ᵥ
      (rotateYaw (MotionModel.toVec (MotionModel.next (MotionModel.add s
          (MotionModel.ofVec (√(α ^ 2 * (n + κ)) • (chol n P).col j))) dt)) -
       rotateYaw (MotionModel.toVec (MotionModel.next (MotionModel.sub s
          (MotionModel.ofVec (√(α ^ 2 * (n + κ)) • (chol n P).col j))) dt))) = 0) → u = 0) :
    ∃ s' P', ukfPredict chol s P dt α β κ = .ok (s', P') ∧ P'.PosDef := by
  rw [ukfPredict_eq chol s P dt α β κ hN]
  unfold predictedRows
  rw [List.map_cons, computeUt_cons _ _ _ _ _ (by rw [List.length_map, sigmaLoop_length])]
  refine ⟨_, _, rfl, ?_⟩
  set r₀ := rotateYaw (MotionModel.toVec (MotionModel.next s dt))
  set l := (sigmaLoop s (chol n P) √(α ^ 2 * (n + κ))).map fun p =>
    rotateYaw (MotionModel.toVec (MotionModel.next p dt)) with hl
  generalize hx : (generateLambda n α κ / (α ^ 2 * (n + κ))) • r₀ +
    (1 / (2 * (α ^ 2 * (n + κ))) : ℝ) • l.sum = x
  have hmap : (l.map fun p => vecMulVec (p - x) (p - x)) =
      (l.map fun p => p - x).map fun v => vecMulVec v v := by
    generalize l = l'
    rw [List.map_map]
    rfl
  rw [hmap]
  have hsym : ∀ l : List (Fin n → ℝ), ((l.map fun v => vecMulVec v v).sum)ᵀ =
      (l.map fun v => vecMulVec v v).sum := by
    intro l
    induction l with
    | nil => simp
    | cons v l ih => rw [List.map_cons, List.sum_cons, transpose_add, ih, transpose_vecMulVec]
  refine PosDef.of_dotProduct_mulVec_pos ?_ fun u hu => ?_
  · unfold IsHermitian
    rw [conjTranspose_eq_transpose_of_trivial, transpose_add, transpose_smul, transpose_smul, hsym,
      transpose_vecMulVec]
  · rw [star_trivial, add_mulVec, smul_mulVec, smul_mulVec, dotProduct_add, dotProduct_smul,
      dotProduct_smul, dot_vecMulVec, dot_sum_vecMulVec, smul_eq_mul, smul_eq_mul]
    have hw : 0 < 1 / (2 * (α ^ 2 * (n + κ))) := by positivity
    have h0 := mul_nonneg hc (sq_nonneg (u ⬝ᵥ (r₀ - x)))
    by_contra hneg
    rw [not_lt] at hneg
    refine hu (hspan u fun j => ?_)
    have hz : ((l.map fun p => p - x).map fun v => (u ⬝ᵥ v) ^ 2).sum ≤ 0 := by
      by_contra hpos
      rw [not_le] at hpos
      have := mul_pos hw hpos
      linarith
    have hz' := sum_sq_zero (l := (l.map fun p => p - x).map fun v => u ⬝ᵥ v) (by
      rw [List.map_map]; exact hz)
    have hmem : ∀ p ∈ l, u ⬝ᵥ (p - x) = 0 := by
      intro p hp
      exact hz' _ (List.mem_map.2 ⟨p - x, List.mem_map.2 ⟨p, hp, rfl⟩, rfl⟩)
    have hin : ∀ p ∈ sigmaLoop s (chol n P) √(α ^ 2 * (n + κ)),
        u ⬝ᵥ (rotateYaw (MotionModel.toVec (MotionModel.next p dt)) - x) = 0 := fun p hp =>
      hmem _ (List.mem_map.2 ⟨p, hp, rfl⟩)
    have ha := hin (MotionModel.add s
      (MotionModel.ofVec (√(α ^ 2 * (n + κ)) • (chol n P).col j))) (by
        unfold sigmaLoop
        exact List.mem_flatMap.2 ⟨j, List.mem_finRange j, by simp⟩)
    have hb := hin (MotionModel.sub s
      (MotionModel.ofVec (√(α ^ 2 * (n + κ)) • (chol n P).col j))) (by
        unfold sigmaLoop
        exact List.mem_flatMap.2 ⟨j, List.mem_finRange j, by simp⟩)
    rw [dotProduct_sub] at ha hb ⊢
    linarith

end

/-- headings `d` to both sides of `c` stay different after wrapping and cutting -/
theorem rotateHeading_ne {a b c d : ℝ} (ha : 0 ≤ a ∧ a < 2 * Real.pi)
    (hb : 0 ≤ b ∧ b < 2 * Real.pi) (h1 : SameDir a (c + d)) (h2 : SameDir b (c - d))
    (hd : Real.sin d ≠ 0) : rotateHeading a ≠ rotateHeading b := by
  have hc := yawCut_bounds
  have key : a ≠ b := by
    rintro rfl
    have h3 := h1.symm.trans h2
    have e1 := h3.sub (SameDir.refl (c - d))
    rw [sub_self, show c + d - (c - d) = 2 * d by ring] at e1
    have s := e1.sin_eq
    have k := e1.cos_eq
    rw [Real.cos_zero, Real.cos_two_mul, Real.cos_sq'] at k
    have : Real.sin d ^ 2 = 0 := by linarith
    exact hd (pow_eq_zero_iff two_ne_zero |>.1 this)
  unfold rotateHeading
  intro h
  split at h <;> split at h
  · exact key (by linarith)
  · linarith [ha.2, hb.1, hc.1]
  · linarith [ha.1, hb.2, hc.1]
  · exact key h

/-- predicted row of a CTRV state: the position moves by an amount that does not depend on it -/
theorem ctrv_row (x y v c w dt : ℝ) :
    rotateYaw (MotionModel.toVec (MotionModel.next (⟨x, y, v, Angle.ofRad c, w⟩ : CtrvState) dt)) =
      ![x + (CtrvState.next ⟨0, 0, v, Angle.ofRad c, w⟩ dt).x,
        y + (CtrvState.next ⟨0, 0, v, Angle.ofRad c, w⟩ dt).y, v,
        rotateHeading (Angle.ofRad (c + w * dt)).getAngle, w] := by
  funext i
  by_cases h3 : i.1 = 3
  · obtain rfl : i = 3 := Fin.ext h3
    rw [rotateYaw_heading _ _ rfl]
    show rotateHeading ((Angle.ofRad c).add (Angle.ofRad (w * dt))).getAngle = _
    rw [Angle.add_ofRad]
    rfl
  rw [rotateYaw_of_ne h3]
  fin_cases i
  · show (CtrvState.next _ dt).x = x + _
    unfold CtrvState.next
    dsimp only
    split <;> ring
  · show (CtrvState.next _ dt).y = y + _
    unfold CtrvState.next
    dsimp only
    split <;> ring
  · rfl
  · exact absurd rfl h3
  · rfl

/-- predicted row of a CTRA state -/
theorem ctra_row (x y v c w a dt : ℝ) :
    rotateYaw (MotionModel.toVec (MotionModel.next (⟨x, y, v, Angle.ofRad c, w, a⟩ : CtraState) dt)) =
      ![x + (CtraState.next ⟨0, 0, v, Angle.ofRad c, w, a⟩ dt).x,
        y + (CtraState.next ⟨0, 0, v, Angle.ofRad c, w, a⟩ dt).y, v + a * dt,
        rotateHeading (Angle.ofRad (c + w * dt)).getAngle, w, a] := by
  funext i
  by_cases h3 : i.1 = 3
  · obtain rfl : i = 3 := Fin.ext h3
    rw [rotateYaw_heading _ _ rfl]
    show rotateHeading ((Angle.ofRad c).add (Angle.ofRad (w * dt))).getAngle = _
    rw [Angle.add_ofRad]
    rfl
  rw [rotateYaw_of_ne h3]
  fin_cases i
  · show (CtraState.next _ dt).x = x + _
    unfold CtraState.next
    dsimp only
    rw [zero_add]
  · show (CtraState.next _ dt).y = y + _
    unfold CtraState.next
    dsimp only
    rw [zero_add]
  · rfl
  · exact absurd rfl h3
  · rfl
  · rfl

theorem ctrv_add_vec (s : CtrvState) (d : Fin 5 → ℝ) : MotionModel.add s (MotionModel.ofVec d) =
    (⟨s.x + d 0, s.y + d 1, s.v + d 2, Angle.ofRad (s.yaw.getAngle + d 3), s.yawRate + d 4⟩ :
      CtrvState) := by
  show CtrvState.add s (CtrvState.ofVec d) = _
  unfold CtrvState.add CtrvState.ofVec
  congr 1
  exact Angle.ofRad_eq_iff.2 ((SameDir.refl _).add (Angle.sameDir_getAngle _))

theorem ctrv_sub_vec (s : CtrvState) (d : Fin 5 → ℝ) : MotionModel.sub s (MotionModel.ofVec d) =
    (⟨s.x - d 0, s.y - d 1, s.v - d 2, Angle.ofRad (s.yaw.getAngle - d 3), s.yawRate - d 4⟩ :
      CtrvState) := by
  show CtrvState.sub s (CtrvState.ofVec d) = _
  unfold CtrvState.sub CtrvState.ofVec
  congr 1
  exact Angle.ofRad_eq_iff.2 ((SameDir.refl _).sub (Angle.sameDir_getAngle _))

theorem ctra_add_vec (s : CtraState) (d : Fin 6 → ℝ) : MotionModel.add s (MotionModel.ofVec d) =
    (⟨s.x + d 0, s.y + d 1, s.v + d 2, Angle.ofRad (s.yaw.getAngle + d 3), s.yawRate + d 4,
      s.a + d 5⟩ : CtraState) := by
  show CtraState.add s (CtraState.ofVec d) = _
  unfold CtraState.add CtraState.ofVec
  congr 1
  exact Angle.ofRad_eq_iff.2 ((SameDir.refl _).add (Angle.sameDir_getAngle _))

theorem ctra_sub_vec (s : CtraState) (d : Fin 6 → ℝ) : MotionModel.sub s (MotionModel.ofVec d) =
    (⟨s.x - d 0, s.y - d 1, s.v - d 2, Angle.ofRad (s.yaw.getAngle - d 3), s.yawRate - d 4,
      s.a - d 5⟩ : CtraState) := by
  show CtraState.sub s (CtraState.ofVec d) = _
  unfold CtraState.sub CtraState.ofVec
  congr 1
  exact Angle.ofRad_eq_iff.2 ((SameDir.refl _).sub (Angle.sameDir_getAngle _))

theorem heading_spread {c e d : ℝ} (hd : Real.sin e ≠ 0) :
    rotateHeading (Angle.ofRad (c + e + d)).getAngle -
      rotateHeading (Angle.ofRad (c - e + d)).getAngle ≠ 0 :=
  sub_ne_zero.2 (rotateHeading_ne (c := c + d) (d := e) (Angle.getAngle_range _)
    (Angle.getAngle_range _)
    (by rw [show c + d + e = c + e + d by ring]; exact Angle.sameDir_getAngle _)
    (by rw [show c + d - e = c - e + d by ring]; exact Angle.sameDir_getAngle _) hd)

theorem diagonal_col {n : ℕ} (d : Fin n → ℝ) (r : ℝ) (j i : Fin n) :
    (r • (Matrix.diagonal d).col j) i = if i = j then r * d j else 0 := by
  rw [Pi.smul_apply, Matrix.col_apply, Matrix.diagonal_apply, smul_eq_mul]
  split
  · rename_i h; rw [h]
  · rw [mul_zero]

/-- a diagonal covariance of a CTRV object is predicted to a positive definite one -/
theorem ctrv_posDef {chol : Chol} (hchol : IsLlt chol) (s : CtrvState) {d : Fin 5 → ℝ}
    (hd : ∀ i, 0 < d i) {dt α β κ : ℝ} (hN : 0 < α ^ 2 * (((5 : ℕ) : ℝ) + κ))
    (hc : 0 ≤ generateLambda 5 α κ / (α ^ 2 * (((5 : ℕ) : ℝ) + κ)) + (1 - α ^ 2 + β))
    (hs : Real.sin (√(α ^ 2 * (((5 : ℕ) : ℝ) + κ)) * √(d 3)) ≠ 0) :
    ∃ s' P', ukfPredict chol s (Matrix.diagonal d) dt α β κ = .ok (s', P') ∧ P'.PosDef := by
  refine ukfPredict_posDef hN hc fun u hu => ?_
  rw [hchol.diagonal hd] at hu
  have hr : ∀ i, √(α ^ 2 * (((5 : ℕ) : ℝ) + κ)) * √(d i) ≠ 0 := fun i =>
    (mul_pos (Real.sqrt_pos.2 hN) (Real.sqrt_pos.2 (hd i))).ne'
  generalize √(α ^ 2 * (((5 : ℕ) : ℝ) + κ)) = r at hu hs hr
  simp only [ctrv_add_vec, ctrv_sub_vec, ctrv_row, dotProduct, Fin.sum_univ_five, Pi.sub_apply,
    diagonal_col] at hu
  have k0 := hu 0
  have k1 := hu 1
  have k2 := hu 2
  have k3 := hu 3
  have k4 := hu 4
  simp [-mul_eq_zero] at k0 k1 k2 k3 k4
  have u0 : u 0 = 0 := (mul_eq_zero.1 (show u 0 * (r * √(d 0)) = 0 by
    linear_combination k0 / 2)).resolve_right (hr 0)
  have u1 : u 1 = 0 := (mul_eq_zero.1 (show u 1 * (r * √(d 1)) = 0 by
    linear_combination k1 / 2)).resolve_right (hr 1)
  rw [u0, u1] at k2 k3 k4
  simp [-mul_eq_zero] at k2 k3 k4
  have u2 : u 2 = 0 := (mul_eq_zero.1 (show u 2 * (r * √(d 2)) = 0 by
    linear_combination k2 / 2)).resolve_right (hr 2)
  have u3 : u 3 = 0 := (mul_eq_zero.1 k3).resolve_right (heading_spread hs)
  rw [u3] at k4
  simp [-mul_eq_zero] at k4
  have u4 : u 4 = 0 := (mul_eq_zero.1 (show u 4 * (r * √(d 4)) = 0 by
    linear_combination k4 / 2)).resolve_right (hr 4)
  funext i
  fin_cases i <;> assumption

/-- a diagonal covariance of a CTRA object is predicted to a positive definite one -/
theorem ctra_posDef {chol : Chol} (hchol : IsLlt chol) (s : CtraState) {d : Fin 6 → ℝ}
    (hd : ∀ i, 0 < d i) {dt α β κ : ℝ} (hN : 0 < α ^ 2 * (((6 : ℕ) : ℝ) + κ))
    (hc : 0 ≤ generateLambda 6 α κ / (α ^ 2 * (((6 : ℕ) : ℝ) + κ)) + (1 - α ^ 2 + β))
    (hs : Real.sin (√(α ^ 2 * (((6 : ℕ) : ℝ) + κ)) * √(d 3)) ≠ 0) :
    ∃ s' P', ukfPredict chol s (Matrix.diagonal d) dt α β κ = .ok (s', P') ∧ P'.PosDef := by
  refine ukfPredict_posDef hN hc fun u hu => ?_
  rw [hchol.diagonal hd] at hu
  have hr : ∀ i, √(α ^ 2 * (((6 : ℕ) : ℝ) + κ)) * √(d i) ≠ 0 := fun i =>
    (mul_pos (Real.sqrt_pos.2 hN) (Real.sqrt_pos.2 (hd i))).ne'
  generalize √(α ^ 2 * (((6 : ℕ) : ℝ) + κ)) = r at hu hs hr
  simp only [ctra_add_vec, ctra_sub_vec, ctra_row, dotProduct, Fin.sum_univ_six, Pi.sub_apply,
    diagonal_col] at hu
  have k0 := hu 0
  have k1 := hu 1
  have k2 := hu 2
  have k3 := hu 3
  have k4 := hu 4
  have k5 := hu 5
  simp [-mul_eq_zero] at k0 k1 k2 k3 k4 k5
  have u0 : u 0 = 0 := (mul_eq_zero.1 (show u 0 * (r * √(d 0)) = 0 by
    linear_combination k0 / 2)).resolve_right (hr 0)
  have u1 : u 1 = 0 := (mul_eq_zero.1 (show u 1 * (r * √(d 1)) = 0 by
    linear_combination k1 / 2)).resolve_right (hr 1)
  rw [u0, u1] at k2 k3 k4 k5
  simp [-mul_eq_zero] at k2 k3 k4 k5
  have u2 : u 2 = 0 := (mul_eq_zero.1 (show u 2 * (r * √(d 2)) = 0 by
    linear_combination k2 / 2)).resolve_right (hr 2)
  have u3 : u 3 = 0 := (mul_eq_zero.1 k3).resolve_right (heading_spread hs)
  rw [u3] at k4
  rw [u2] at k5
  simp [-mul_eq_zero] at k4 k5
  have u4 : u 4 = 0 := (mul_eq_zero.1 (show u 4 * (r * √(d 4)) = 0 by
    linear_combination k4 / 2)).resolve_right (hr 4)
  have u5 : u 5 = 0 := (mul_eq_zero.1 (show u 5 * (r * √(d 5)) = 0 by
    linear_combination k5 / 2)).resolve_right (hr 5)
  funext i
  fin_cases i <;> assumption

/-- `√7` times the Cholesky factor of a covariance that couples the speed to the x position and
the heading to both -/
noncomputable def singularRoot : Matrix (Fin 5) (Fin 5) ℝ :=
  !![1, 0, 0, 0, 0; 0, 1, 0, 0, 0; 1, 0, 1, 0, 0; Real.pi, 0, Real.pi / 2, 1, 0; 0, 0, 0, 0, 1]

/-- a covariance of a CTRV state -/
noncomputable def singularCov : CtrvCov := (1 / 7 : ℝ) • (singularRoot * singularRootᵀ)

/-- a standing CTRV object at the origin, with heading 0 -/
noncomputable def standingState : CtrvState := ⟨0, 0, 0, Angle.ofRad 0, 0⟩

theorem singularCov_cholesky : IsCholesky ((1 / √7 : ℝ) • singularRoot) singularCov where
  lower i j hij := by
    rw [Matrix.smul_apply]
    have : singularRoot i j = 0 := by
      fin_cases i <;> fin_cases j <;> first | rfl | exact absurd hij (by decide)
    rw [this, smul_zero]
  diag i := by
    rw [Matrix.smul_apply, smul_eq_mul]
    have : singularRoot i i = 1 := by fin_cases i <;> rfl
    rw [this]
    positivity
  factor := by
    unfold singularCov
    rw [transpose_smul, Matrix.smul_mul, Matrix.mul_smul, smul_smul]
    congr 1
    rw [div_mul_div_comm, Real.mul_self_sqrt (by norm_num), one_mul]

/-- a point that does not move along the x axis -/
theorem standing_x (x y v c w : ℝ) (h : x + v * Real.cos c = 0) (hw : w = 0 ∨ (x = 0 ∧ v = 0)) :
    (CtrvState.next ⟨x, y, v, Angle.ofRad c, w⟩ 1).x = 0 := by
  rcases hw with hw | ⟨rfl, rfl⟩
  · rw [east_x x y v c hw, h]
  · unfold CtrvState.next
    dsimp only
    split <;> simp

theorem standing_rows : ∀ p ∈ predictedRows standingState ((1 / √7 : ℝ) • singularRoot) √7 1,
    p 0 = 0 := by
  have h7 : √7 * (1 / √7) = (1 : ℝ) := by
    rw [mul_one_div, div_self (Real.sqrt_ne_zero'.2 (by norm_num))]
  rw [predictedRows_smul, h7]
  have hyaw : standingState.yaw.getAngle = 0 :=
    Angle.getAngle_ofRad_of_range ⟨le_rfl, by linarith [Real.pi_pos]⟩
  intro p hp
  unfold predictedRows at hp
  obtain ⟨q, hq, rfl⟩ := List.mem_map.1 hp
  rw [rotateYaw_of_ne (by decide)]
  show (CtrvState.next q 1).x = 0
  rcases List.mem_cons.1 hq with rfl | hq
  · exact standing_x 0 0 0 0 0 (by simp) (Or.inl rfl)
  unfold sigmaLoop at hq
  obtain ⟨j, -, hq⟩ := List.mem_flatMap.1 hq
  rw [List.mem_cons, List.mem_singleton] at hq
  rcases hq with rfl | rfl
  · rw [ctrv_add_vec]
    apply standing_x
    · rw [hyaw]
      fin_cases j <;> simp [standingState, singularRoot]
    · fin_cases j <;> simp [standingState, singularRoot]
  · rw [ctrv_sub_vec]
    apply standing_x
    · rw [hyaw]
      fin_cases j <;> simp [standingState, singularRoot]
    · fin_cases j <;> simp [standingState, singularRoot]

/-- a component that is the same in all predicted points has no variance -/
theorem ukfPredict_const {S : Type} {n : ℕ} [MotionModel S n] {chol : Chol} {s : S}
    {P : Matrix (Fin n) (Fin n) ℝ} {dt α β κ : ℝ} (hN : 0 < α ^ 2 * (n + κ)) {k : Fin n} {c : ℝ}
    (hr : ∀ p ∈ predictedRows s (chol n P) √(α ^ 2 * (n + κ)) dt, p k = c) :
    ∃ s' P', ukfPredict chol s P dt α β κ = .ok (s', P') ∧ ∀ i, P' k i = 0 := by
  rw [ukfPredict_eq chol s P dt α β κ hN]
  have hlen : (predictedRows s (chol n P) √(α ^ 2 * (n + κ)) dt).length = 2 * n + 1 := by
    unfold predictedRows
    rw [List.length_map, List.length_cons, sigmaLoop_length]
  obtain ⟨r, l, hrl⟩ : ∃ r l, predictedRows s (chol n P) √(α ^ 2 * (n + κ)) dt = r :: l :=
    ⟨_, _, rfl⟩
  rw [hrl] at hr hlen ⊢
  have hlen' : l.length = 2 * n := by simpa using hlen
  rw [computeUt_cons _ _ _ _ _ hlen']
  refine ⟨_, _, rfl, fun i => ?_⟩
  have h0 : r k = c := hr r List.mem_cons_self
  have hl : ∀ p ∈ l, p k = c := fun p hp => hr p (List.mem_cons_of_mem _ hp)
  have hsum : l.sum k = l.length * c := by
    clear hr hlen hrl hlen'
    induction l with
    | nil => simp
    | cons p l ih =>
      rw [List.sum_cons, Pi.add_apply, hl p List.mem_cons_self,
        ih fun q hq => hl q (List.mem_cons_of_mem _ hq), List.length_cons]
      push_cast
      ring
  have hw := weight_total (n := n) (lam := generateLambda n α κ) (by rw [lambda_sum]; exact hN.ne')
  rw [lambda_sum] at hw
  generalize hx : (generateLambda n α κ / (α ^ 2 * (n + κ))) • r +
    (1 / (2 * (α ^ 2 * (n + κ))) : ℝ) • l.sum = x
  have hx0 : x k = c := by
    rw [← hx, Pi.add_apply, Pi.smul_apply, Pi.smul_apply, hsum, h0, hlen', smul_eq_mul, smul_eq_mul]
    push_cast
    linear_combination c * hw
  have hcov : ((l.map fun p => vecMulVec (p - x) (p - x)).sum) k i = 0 := by
    clear hr hlen hrl hsum hx hlen'
    induction l with
    | nil => rfl
    | cons p l ih =>
      rw [List.map_cons, List.sum_cons, Matrix.add_apply,
        ih fun q hq => hl q (List.mem_cons_of_mem _ hq), vecMulVec_apply, Pi.sub_apply, hx0,
        hl p List.mem_cons_self]
      simp
  rw [Matrix.add_apply, Matrix.smul_apply, Matrix.smul_apply, hcov, vecMulVec_apply, Pi.sub_apply,
    hx0, h0]
  simp

/-- the x variance of the predicted object is zero -/
theorem standing_predict {chol : Chol} (hchol : IsLlt chol) :
    ∃ s C, ukfPredict chol standingState singularCov 1 1 1 2 = .ok (s, C) ∧ ∀ i, C 0 i = 0 := by
  have hL : chol 5 singularCov = (1 / √7 : ℝ) • singularRoot :=
    (hchol 5 _ singularCov_cholesky.posDef).unique singularCov_cholesky
  have hN : (1 : ℝ) ^ 2 * (((5 : ℕ) : ℝ) + 2) = 7 := by norm_num
  refine ukfPredict_const (by rw [hN]; norm_num) (c := 0) ?_
  rw [hN, hL]
  exact standing_rows

/-- a heading spread by a whole turn does not show in the sigma points -/
theorem turn_predict {chol : Chol} (hchol : IsLlt chol) (s : CtrvState) {d : Fin 5 → ℝ}
    (hd : ∀ i, 0 < d i) (h3 : √7 * √(d 3) = 2 * Real.pi) :
    ∃ s' C, ukfPredict chol s (Matrix.diagonal d) 0 1 1 2 = .ok (s', C) ∧ ∀ i, C 3 i = 0 := by
  have hN : (1 : ℝ) ^ 2 * (((5 : ℕ) : ℝ) + 2) = 7 := by norm_num
  refine ukfPredict_const (by rw [hN]; norm_num) (c := rotateHeading s.yaw.getAngle) ?_
  rw [hN, hchol.diagonal hd]
  have hper : ∀ {c e : ℝ}, SameDir c e → ∀ x y v w, rotateYaw (MotionModel.toVec
      (MotionModel.next (⟨x, y, v, Angle.ofRad c, w⟩ : CtrvState) 0)) 3 =
      rotateHeading (Angle.ofRad e).getAngle := by
    intro c e h x y v w
    rw [ctrv_row, mul_zero, add_zero, Angle.ofRad_eq_iff.2 h]
    rfl
  have hown : (Angle.ofRad s.yaw.getAngle).getAngle = s.yaw.getAngle :=
    Angle.getAngle_ofRad_of_range (Angle.getAngle_range _)
  have hdir : ∀ j, SameDir (s.yaw.getAngle + (√7 • (Matrix.diagonal fun i => √(d i)).col j) 3)
      s.yaw.getAngle ∧ SameDir (s.yaw.getAngle - (√7 • (Matrix.diagonal fun i => √(d i)).col j) 3)
      s.yaw.getAngle := by
    intro j
    rw [diagonal_col]
    split
    · rename_i h
      rw [← h, h3]
      exact ⟨⟨1, by push_cast; ring⟩, ⟨-1, by push_cast; ring⟩⟩
    · rw [add_zero, sub_zero]
      exact ⟨SameDir.refl _, SameDir.refl _⟩
  intro p hp
  unfold predictedRows at hp
  obtain ⟨q, hq, rfl⟩ := List.mem_map.1 hp
  rcases List.mem_cons.1 hq with rfl | hq
  · have h := ctrv_add_vec q 0
    rw [rotateYaw_heading _ _ rfl]
    show rotateHeading (q.yaw.add (Angle.ofRad (q.yawRate * 0))).getAngle = _
    congr 1
    rw [mul_zero]
    have h := (Angle.sameDir_getAngle_add_ofRad q.yaw 0)
    rw [add_zero] at h
    exact h.eq_of_range (Angle.getAngle_range _) (Angle.getAngle_range _)
  unfold sigmaLoop at hq
  obtain ⟨j, -, hq⟩ := List.mem_flatMap.1 hq
  rw [List.mem_cons, List.mem_singleton] at hq
  rcases hq with rfl | rfl
  · rw [ctrv_add_vec, hper (hdir j).1, hown]
  · rw [ctrv_sub_vec, hper (hdir j).2, hown]

end Mot
