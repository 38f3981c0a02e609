import Verif.Proofs.Displacement
import Verif.Proofs.Indefinite
/-!
# A prediction made in two steps that differs from the prediction in one step

A CTRV object driving along the y axis, with an uncertain heading.  After one step the
heading is correlated with the position, and the sigma points of the second step are spread
differently over the headings.
-/

namespace Mot

open Matrix Spec Real

/-- predicted row of a point that does not turn -/
theorem row_straight (x y v c dt : ℝ) (h0 : 0 ≤ c) (h1 : c ≤ π) :
    rotateYaw (MotionModel.toVec (MotionModel.next (⟨x, y, v, Angle.ofRad c, 0⟩ : CtrvState) dt)) =
      ![x + v * cos c * dt, y + v * sin c * dt, v, c, 0] := by
  have hs := CtrvState.next_straight (s := ⟨x, y, v, Angle.ofRad c, 0⟩) unitsEq_zero_zero dt
  have hy : ((CtrvState.next ⟨x, y, v, Angle.ofRad c, 0⟩ dt).yaw).getAngle = c := by
    show ((Angle.ofRad c).add (Angle.ofRad (0 * dt))).getAngle = c
    rw [Angle.add_ofRad, zero_mul, add_zero,
      Angle.getAngle_ofRad_of_range ⟨h0, by linarith [pi_pos]⟩]
  simp only [Angle.cos_getAngle_ofRad, Angle.sin_getAngle_ofRad] at hs
  have e : (MotionModel.toVec (MotionModel.next (⟨x, y, v, Angle.ofRad c, 0⟩ : CtrvState) dt)
      : Fin 5 → ℝ) = ![x + v * cos c * dt, y + v * sin c * dt, v, c, 0] := by
    show CtrvState.toVec (CtrvState.next _ dt) = _
    unfold CtrvState.toVec
    rw [hs.1, hs.2, hy]
    rfl
  rw [e, rotateYaw_of_le]
  intro i hi
  obtain rfl : i = 3 := Fin.ext hi
  exact h1.trans yawCut_bounds.1.le

/-- predicted row of a point that turns by whole turns -/
theorem row_circle (x y v c w dt : ℝ) (h0 : 0 ≤ c) (h1 : c ≤ π) {k : ℤ} (hk : w * dt = k * (2 * π))
    (hw : 1 ≤ |w|) :
    rotateYaw (MotionModel.toVec (MotionModel.next (⟨x, y, v, Angle.ofRad c, w⟩ : CtrvState) dt)) =
      ![x, y, v, c, w] := by
  have hn : ¬ unitsEq w 0 := by
    rw [unitsEq_zero_iff]
    refine not_lt.2 (le_trans ?_ hw)
    unfold dblMin
    exact div_le_one_of_le₀ (one_le_pow₀ (by norm_num)) (by positivity)
  have hs := CtrvState.next_turn (s := ⟨x, y, v, Angle.ofRad c, w⟩) hn dt
  have hy : ((CtrvState.next ⟨x, y, v, Angle.ofRad c, w⟩ dt).yaw).getAngle = c := by
    show ((Angle.ofRad c).add (Angle.ofRad (w * dt))).getAngle = c
    rw [Angle.add_ofRad, hk, show Angle.ofRad (c + k * (2 * π)) = Angle.ofRad c by
        unfold Angle.ofRad
        rw [cos_add_int_mul_two_pi, sin_add_int_mul_two_pi],
      Angle.getAngle_ofRad_of_range ⟨h0, by linarith [pi_pos]⟩]
  simp only [hk, cos_add_int_mul_two_pi, sin_add_int_mul_two_pi, sub_self, mul_zero, add_zero,
    sub_zero] at hs
  have e : (MotionModel.toVec (MotionModel.next (⟨x, y, v, Angle.ofRad c, w⟩ : CtrvState) dt)
      : Fin 5 → ℝ) = ![x, y, v, c, w] := by
    show CtrvState.toVec (CtrvState.next _ dt) = _
    unfold CtrvState.toVec
    rw [hs.1, hs.2, hy]
    rfl
  rw [e, rotateYaw_of_le]
  intro i hi
  obtain rfl : i = 3 := Fin.ext hi
  exact h1.trans yawCut_bounds.1.le

/-- a CTRV object at `y` on the y axis, driving along it at 1 m/s -/
noncomputable def northState (y : ℝ) : CtrvState := ⟨0, y, 1, Angle.ofRad (π / 2), 0⟩

theorem northState_add (y : ℝ) (d : Fin 5 → ℝ) : MotionModel.add (northState y)
    (MotionModel.ofVec d) =
    (⟨0 + d 0, y + d 1, 1 + d 2, Angle.ofRad (π / 2 + d 3), 0 + d 4⟩ : CtrvState) := by
  show CtrvState.add _ (CtrvState.ofVec d) = _
  unfold CtrvState.add CtrvState.ofVec northState
  simp only [Angle.add_ofRad]

theorem northState_sub (y : ℝ) (d : Fin 5 → ℝ) : MotionModel.sub (northState y)
    (MotionModel.ofVec d) =
    (⟨0 - d 0, y - d 1, 1 - d 2, Angle.ofRad (π / 2 - d 3), 0 - d 4⟩ : CtrvState) := by
  show CtrvState.sub _ (CtrvState.ofVec d) = _
  unfold CtrvState.sub CtrvState.ofVec northState
  simp only [Angle.sub_ofRad]

/-- `√7` times a Cholesky factor: speed correlated with the y position and heading with the
x position -/
noncomputable def northRoot (a b e f g h : ℝ) : Matrix (Fin 5) (Fin 5) ℝ :=
  !![a, 0, 0, 0, 0; 0, e, 0, 0, 0; 0, f, g, 0, 0; b, 0, 0, h, 0; 0, 0, 0, 0, 2 * π]

theorem northRoot_cholesky {a b e f g h : ℝ} (ha : 0 < a) (he : 0 < e) (hg : 0 < g) (hh : 0 < h) :
    IsCholesky ((1 / √7 : ℝ) • northRoot a b e f g h)
      ((1 / 7 : ℝ) • (northRoot a b e f g h * (northRoot a b e f g h)ᵀ)) where
  lower i j hij := by
    rw [Matrix.smul_apply]
    have : northRoot a b e f g h i j = 0 := by
      fin_cases i <;> fin_cases j <;> first | rfl | exact absurd hij (by decide)
    rw [this, smul_zero]
  diag i := by
    rw [Matrix.smul_apply, smul_eq_mul]
    have hp := pi_pos
    have : 0 < northRoot a b e f g h i i := by
      fin_cases i
      · exact ha
      · exact he
      · exact hg
      · exact hh
      · exact mul_pos two_pos hp
    positivity
  factor := by
    rw [transpose_smul, Matrix.smul_mul, Matrix.mul_smul, smul_smul]
    congr 1
    rw [div_mul_div_comm, Real.mul_self_sqrt (by norm_num), one_mul]

theorem northRoot_cov (a b e f g h : ℝ) :
    (1 / 7 : ℝ) • (northRoot a b e f g h * (northRoot a b e f g h)ᵀ) =
      !![a * a / 7, 0, 0, a * b / 7, 0; 0, e * e / 7, e * f / 7, 0, 0;
         0, e * f / 7, (f * f + g * g) / 7, 0, 0; a * b / 7, 0, 0, (b * b + h * h) / 7, 0;
         0, 0, 0, 0, 4 * π ^ 2 / 7] := by
  ext i j
  rw [Matrix.smul_apply, mul_apply, Fin.sum_univ_five]
  fin_cases i <;> fin_cases j <;> simp [northRoot] <;> ring

/-- rows of the predicted points of `northState` -/
theorem north_rows {y dt a b e f g h : ℝ} (hb : |b| ≤ π / 2) (hh : |h| ≤ π / 2) {k : ℤ}
    (hk : dt = k) :
    predictedRows (northState y) ((1 / √7 : ℝ) • northRoot a b e f g h) √7 dt =
      [![0, y + dt, 1, π / 2, 0],
       ![a - sin b * dt, y + cos b * dt, 1, π / 2 + b, 0],
       ![-a + sin b * dt, y + cos b * dt, 1, π / 2 - b, 0],
       ![0, y + e + (1 + f) * dt, 1 + f, π / 2, 0], ![0, y - e + (1 - f) * dt, 1 - f, π / 2, 0],
       ![0, y + (1 + g) * dt, 1 + g, π / 2, 0], ![0, y + (1 - g) * dt, 1 - g, π / 2, 0],
       ![-sin h * dt, y + cos h * dt, 1, π / 2 + h, 0],
       ![sin h * dt, y + cos h * dt, 1, π / 2 - h, 0],
       ![0, y, 1, π / 2, 2 * π], ![0, y, 1, π / 2, -(2 * π)]] := by
  have hp := pi_pos
  have h3 := pi_gt_three
  rw [abs_le] at hb hh
  have h7 : √7 * (1 / √7) = (1 : ℝ) := by
    rw [mul_one_div, div_self (Real.sqrt_ne_zero'.2 (by norm_num))]
  have hc : ∀ j, √7 • ((1 / √7 : ℝ) • northRoot a b e f g h).col j =
      (northRoot a b e f g h).col j := by
    intro j
    funext i
    rw [Pi.smul_apply, col_apply, Matrix.smul_apply, smul_eq_mul, smul_eq_mul, ← mul_assoc, h7,
      one_mul, col_apply]
  have hf : List.finRange 5 = [0, 1, 2, 3, 4] := by decide
  have e0 : (northRoot a b e f g h).col 0 = ![a, 0, 0, b, 0] := by funext i; fin_cases i <;> rfl
  have e1 : (northRoot a b e f g h).col 1 = ![0, e, f, 0, 0] := by funext i; fin_cases i <;> rfl
  have e2 : (northRoot a b e f g h).col 2 = ![0, 0, g, 0, 0] := by funext i; fin_cases i <;> rfl
  have e3 : (northRoot a b e f g h).col 3 = ![0, 0, 0, h, 0] := by funext i; fin_cases i <;> rfl
  have e4 : (northRoot a b e f g h).col 4 = ![0, 0, 0, 0, 2 * π] := by
    funext i; fin_cases i <;> rfl
  have hpos : ∀ c : ℝ, cos (π / 2 + c) = - sin c ∧ sin (π / 2 + c) = cos c ∧
      cos (π / 2 - c) = sin c ∧ sin (π / 2 - c) = cos c := by
    intro c
    refine ⟨by rw [add_comm, cos_add_pi_div_two], by rw [add_comm, sin_add_pi_div_two],
      cos_pi_div_two_sub c, sin_pi_div_two_sub c⟩
  have hcp := row_circle 0 y 1 (π / 2) (2 * π) dt (by linarith) (by linarith) (k := k)
    (by rw [hk]; ring) (by rw [abs_of_pos (by positivity)]; linarith)
  have hcm := row_circle 0 y 1 (π / 2) (-(2 * π)) dt (by linarith) (by linarith) (k := -k)
    (by rw [hk]; push_cast; ring) (by rw [abs_neg, abs_of_pos (by positivity)]; linarith)
  have hs0 := row_straight 0 y 1 (π / 2) dt (by linarith) (by linarith)
  have hx1 := row_straight a y 1 (π / 2 + b) dt (by linarith) (by linarith)
  have hx2 := row_straight (-a) y 1 (π / 2 - b) dt (by linarith) (by linarith)
  have hy1 := row_straight 0 (y + e) (1 + f) (π / 2) dt (by linarith) (by linarith)
  have hy2 := row_straight 0 (y - e) (1 - f) (π / 2) dt (by linarith) (by linarith)
  have hv1 := row_straight 0 y (1 + g) (π / 2) dt (by linarith) (by linarith)
  have hv2 := row_straight 0 y (1 - g) (π / 2) dt (by linarith) (by linarith)
  have hh1 := row_straight 0 y 1 (π / 2 + h) dt (by linarith) (by linarith)
  have hh2 := row_straight 0 y 1 (π / 2 - h) dt (by linarith) (by linarith)
  unfold predictedRows sigmaLoop
  simp only [hf, List.flatMap_cons, List.flatMap_nil, List.map_cons, List.map_nil, List.append_nil,
    List.cons_append, List.nil_append, hc, e0, e1, e2, e3, e4, northState_add, northState_sub]
  simp only [Matrix.cons_val_zero, Matrix.cons_val_one, Matrix.cons_val, zero_add, add_zero,
    zero_sub, sub_zero]
  unfold northState
  rw [hs0, hx1, hx2, hy1, hy2, hv1, hv2, hh1, hh2, hcp, hcm]
  simp only [hpos, cos_pi_div_two, sin_pi_div_two, mul_zero, zero_mul, mul_one, one_mul, zero_add,
    sub_eq_add_neg]
  simp only [sin_neg, cos_neg, neg_mul, neg_neg]

/-- prediction of `northState` with `default_unscented_transform` -/
theorem north_predict {chol : Chol} (hchol : IsLlt chol) {y dt a b e f g h : ℝ} (ha : 0 < a)
    (he : 0 < e) (hg : 0 < g) (hh0 : 0 < h) (hb : |b| ≤ π / 2) (hh : |h| ≤ π / 2) {k : ℤ}
    (hk : dt = k) {y' : ℝ} (hy : y' = y + (4 + cos b + cos h) / 7 * dt) :
    ukfPredict chol (northState y) ((1 / 7 : ℝ) • (northRoot a b e f g h * (northRoot a b e f g h)ᵀ))
      dt 1 1 2 = .ok (northState y',
        !![((a - sin b * dt) ^ 2 + (sin h * dt) ^ 2) / 7, 0, 0,
             ((a - sin b * dt) * b - sin h * dt * h) / 7, 0;
           0, 9 / 7 * (y + dt - y') ^ 2 + ((y + cos b * dt - y') ^ 2 + (y + dt - y') ^ 2 +
             (e + f * dt) ^ 2 + (y + dt - y') ^ 2 + (g * dt) ^ 2 + (y + cos h * dt - y') ^ 2 +
             (y - y') ^ 2) / 7, ((e + f * dt) * f + g * dt * g) / 7, 0, 0;
           0, ((e + f * dt) * f + g * dt * g) / 7, (f * f + g * g) / 7, 0, 0;
           ((a - sin b * dt) * b - sin h * dt * h) / 7, 0, 0, (b * b + h * h) / 7, 0;
           0, 0, 0, 0, 4 * π ^ 2 / 7]) := by
  have hch := northRoot_cholesky ha he hg hh0 (b := b) (f := f)
  have hL := (hchol 5 _ hch.posDef).unique hch
  have hN : (1 : ℝ) ^ 2 * (((5 : ℕ) : ℝ) + 2) = 7 := by norm_num
  have hlam : generateLambda 5 1 2 = 2 := by unfold generateLambda; norm_num
  rw [ukfPredict_eq chol _ _ dt 1 1 2 (by rw [hN]; norm_num), hN, hL, north_rows hb hh hk, hlam,
    computeUt_cons _ _ _ _ _ (by rfl)]
  simp only [List.sum_cons, List.sum_nil]
  have hx : ((2 / 7 : ℝ) • ![0, y + dt, 1, π / 2, 0] + (1 / (2 * 7) : ℝ) •
      (![a - sin b * dt, y + cos b * dt, 1, π / 2 + b, 0] +
       (![-a + sin b * dt, y + cos b * dt, 1, π / 2 - b, 0] +
       (![0, y + e + (1 + f) * dt, 1 + f, π / 2, 0] + (![0, y - e + (1 - f) * dt, 1 - f, π / 2, 0] +
       (![0, y + (1 + g) * dt, 1 + g, π / 2, 0] + (![0, y + (1 - g) * dt, 1 - g, π / 2, 0] +
       (![-sin h * dt, y + cos h * dt, 1, π / 2 + h, 0] +
       (![sin h * dt, y + cos h * dt, 1, π / 2 - h, 0] +
       (![0, y, 1, π / 2, 2 * π] + (![0, y, 1, π / 2, -(2 * π)] + 0)))))))))) : Fin 5 → ℝ) =
      ![0, y', 1, π / 2, 0] := by
    rw [hy]
    funext i
    fin_cases i <;> simp <;> ring
  rw [hx]
  refine congrArg Outcome.ok (Prod.ext rfl ?_)
  simp only [List.map_cons, List.map_nil, List.sum_cons, List.sum_nil, add_zero]
  ext i j
  simp only [Matrix.add_apply, Matrix.smul_apply, vecMulVec_apply, Pi.sub_apply, smul_eq_mul]
  fin_cases i <;> fin_cases j <;> simp <;> ring

/-- the angle π/20 -/
theorem north_cos : cos (3 * (π / 20)) + cos (4 * (π / 20)) < 1 + cos (5 * (π / 20)) := by
  set φ := π / 20 with hφ
  have hp := pi_pos
  have h0 : 0 < φ := by positivity
  have h1 : cos (2 * φ) < cos φ :=
    cos_lt_cos_of_nonneg_of_le_pi h0.le (by rw [hφ]; linarith) (by linarith)
  have s1 : 0 < sin φ := sin_pos_of_pos_of_lt_pi h0 (by rw [hφ]; linarith)
  have s2 : 0 < sin (2 * φ) := sin_pos_of_pos_of_lt_pi (by linarith) (by rw [hφ]; linarith)
  have e : cos (3 * φ) + cos (4 * φ) - 1 - cos (5 * φ) =
      4 * sin (2 * φ) * sin φ * (cos (2 * φ) - cos φ) := by
    have a1 : cos (3 * φ) = cos (4 * φ) * cos φ + sin (4 * φ) * sin φ := by
      rw [← cos_sub]; congr 1; ring
    have a2 : cos (5 * φ) = cos (4 * φ) * cos φ - sin (4 * φ) * sin φ := by
      rw [← cos_add]; congr 1; ring
    have a3 : cos (4 * φ) = 1 - 2 * sin (2 * φ) ^ 2 := by
      rw [show 4 * φ = 2 * (2 * φ) by ring, cos_two_mul, cos_sq']; ring
    have a4 : sin (4 * φ) = 2 * sin (2 * φ) * cos (2 * φ) := by
      rw [show 4 * φ = 2 * (2 * φ) by ring, sin_two_mul]
    have a5 : sin (2 * φ) = 2 * sin φ * cos φ := sin_two_mul φ
    rw [a1, a2, a3, a4]
    linear_combination -2 * sin (2 * φ) * a5
  have : 4 * sin (2 * φ) * sin φ * (cos (2 * φ) - cos φ) < 0 :=
    mul_neg_of_pos_of_neg (by positivity) (by linarith)
  linarith

/-- Predicting by one second twice and by two seconds at once: the y positions differ. -/
theorem two_steps {chol : Chol} (hchol : IsLlt chol) :
    ∃ P P₁ P₂ P₁₂ : CtrvCov, ∃ y₁ y₂ y₁₂ : ℝ, P.PosDef ∧ P₁.PosDef ∧
      ukfPredict chol (northState 0) P 1 1 1 2 = .ok (northState y₁, P₁) ∧
      ukfPredict chol (northState y₁) P₁ 1 1 1 2 = .ok (northState y₁₂, P₁₂) ∧
      ukfPredict chol (northState 0) P 2 1 1 2 = .ok (northState y₂, P₂) ∧ y₁₂ < y₂ := by
  have hp := pi_pos
  have ha : 0 < 2 * √2 / 3 := by positivity
  have h7 : 0 < √7 := by positivity
  have hh0 : 0 < 5 * (π / 20) := by positivity
  have hh : |5 * (π / 20)| ≤ π / 2 := by rw [abs_of_pos hh0]; linarith
  have hb : |(0 : ℝ)| ≤ π / 2 := by rw [abs_zero]; linarith
  have s2 : √2 * √2 = 2 := Real.mul_self_sqrt (by norm_num)
  have s7 : √7 * √7 = 7 := Real.mul_self_sqrt (by norm_num)
  have hq : 5 * (π / 20) = π / 4 := by ring
  set y₁ : ℝ := 0 + (4 + cos 0 + cos (5 * (π / 20))) / 7 * 1 with hy1
  -- the first step
  have st1 := north_predict hchol (y := 0) (dt := 1) (f := 0) ha h7 h7 hh0 hb hh (k := 1)
    (by norm_num) hy1
  -- the two seconds at once
  have st2 := north_predict hchol (y := 0) (dt := 2) (f := 0) ha h7 h7 hh0 hb hh (k := 2)
    (by norm_num) rfl
  -- variance of the y position after the first step
  set Y : ℝ := 9 / 7 * (0 + 1 - y₁) ^ 2 + ((0 + cos 0 * 1 - y₁) ^ 2 + (0 + 1 - y₁) ^ 2 +
    (√7 + 0 * 1) ^ 2 + (0 + 1 - y₁) ^ 2 + (√7 * 1) ^ 2 + (0 + cos (5 * (π / 20)) * 1 - y₁) ^ 2 +
    (0 - y₁) ^ 2) / 7 with hY
  have hY2 : 2 ≤ Y := by
    have e1 : (√7 + 0 * 1) ^ 2 = 7 := by rw [zero_mul, add_zero, sq, s7]
    have e2 : (√7 * 1) ^ 2 = 7 := by rw [mul_one, sq, s7]
    rw [hY, e1, e2]
    nlinarith [sq_nonneg (0 + 1 - y₁), sq_nonneg (0 + cos 0 * 1 - y₁),
      sq_nonneg (0 + cos (5 * (π / 20)) * 1 - y₁), sq_nonneg (0 - y₁)]
  have hYp : 0 < Y := by linarith
  set e : ℝ := √(7 * Y) with he
  have he0 : 0 < e := Real.sqrt_pos.2 (by linarith)
  have hee : e * e = 7 * Y := Real.mul_self_sqrt (by linarith)
  set g : ℝ := √(7 - 7 / Y) with hgd
  have hg1 : 0 < 7 - 7 / Y := by
    have : 7 / Y ≤ 7 / 2 := div_le_div_of_nonneg_left (by norm_num) (by norm_num) hY2
    linarith
  have hg0 : 0 < g := Real.sqrt_pos.2 hg1
  have hgg : g * g = 7 - 7 / Y := Real.mul_self_sqrt hg1.le
  have hff : 7 / e * (7 / e) = 7 / Y := by
    rw [div_mul_div_comm, hee]
    field_simp
  have ha' : 0 < 5 * √2 / 6 := by positivity
  have hb3 : |-(3 * (π / 20))| ≤ π / 2 := by rw [abs_neg, abs_of_pos (by positivity)]; linarith
  have hh4 : 0 < 4 * (π / 20) := by positivity
  have hh4' : |4 * (π / 20)| ≤ π / 2 := by rw [abs_of_pos hh4]; linarith
  -- the covariance after the first step
  have hcov := northRoot_cov (5 * √2 / 6) (-(3 * (π / 20))) e (7 / e) g (4 * (π / 20))
  have hP1 : (1 / 7 : ℝ) • (northRoot (5 * √2 / 6) (-(3 * (π / 20))) e (7 / e) g (4 * (π / 20)) *
      (northRoot (5 * √2 / 6) (-(3 * (π / 20))) e (7 / e) g (4 * (π / 20)))ᵀ) =
      !![((2 * √2 / 3 - sin 0 * 1) ^ 2 + (sin (5 * (π / 20)) * 1) ^ 2) / 7, 0, 0,
           ((2 * √2 / 3 - sin 0 * 1) * 0 - sin (5 * (π / 20)) * 1 * (5 * (π / 20))) / 7, 0;
         0, Y, ((√7 + 0 * 1) * 0 + √7 * 1 * √7) / 7, 0, 0;
         0, ((√7 + 0 * 1) * 0 + √7 * 1 * √7) / 7, (0 * 0 + √7 * √7) / 7, 0, 0;
         ((2 * √2 / 3 - sin 0 * 1) * 0 - sin (5 * (π / 20)) * 1 * (5 * (π / 20))) / 7, 0, 0,
           (0 * 0 + 5 * (π / 20) * (5 * (π / 20))) / 7, 0;
         0, 0, 0, 0, 4 * π ^ 2 / 7] := by
    have c1 : 5 * √2 / 6 * (5 * √2 / 6) / 7 =
        ((2 * √2 / 3 - sin 0 * 1) ^ 2 + (sin (5 * (π / 20)) * 1) ^ 2) / 7 := by
      rw [hq, sin_pi_div_four, sin_zero]
      linear_combination (25 / 36 - 4 / 9 - 1 / 4) / 7 * s2
    have c2 : 5 * √2 / 6 * -(3 * (π / 20)) / 7 =
        ((2 * √2 / 3 - sin 0 * 1) * 0 - sin (5 * (π / 20)) * 1 * (5 * (π / 20))) / 7 := by
      rw [hq, sin_pi_div_four, sin_zero]
      ring
    have c3 : e * e / 7 = Y := by rw [hee]; ring
    have c4 : e * (7 / e) / 7 = ((√7 + 0 * 1) * 0 + √7 * 1 * √7) / 7 := by
      rw [mul_div_cancel₀ _ he0.ne', mul_zero, zero_add, mul_one, s7]
    have c5 : (7 / e * (7 / e) + g * g) / 7 = (0 * 0 + √7 * √7) / 7 := by
      rw [hff, hgg, s7]; ring
    have c6 : (-(3 * (π / 20)) * -(3 * (π / 20)) + 4 * (π / 20) * (4 * (π / 20))) / 7 =
        (0 * 0 + 5 * (π / 20) * (5 * (π / 20))) / 7 := by ring
    rw [hcov, c1, c2, c3, c4, c5, c6]
  -- the second step
  have st3 := north_predict hchol (y := y₁) (dt := 1) (f := 7 / e) ha' he0 hg0 hh4 hb3 hh4' (k := 1)
    (by norm_num) rfl
  have hpd := (northRoot_cholesky ha' he0 hg0 hh4 (b := -(3 * (π / 20))) (f := 7 / e)).posDef
  rw [hP1] at st3 hpd
  refine ⟨_, _, _, _, _, _, _, (northRoot_cholesky ha h7 h7 hh0 (b := 0) (f := 0)).posDef, hpd, st1,
    st3, st2, ?_⟩
  have := north_cos
  rw [hy1, cos_neg, cos_zero]
  linarith

end Mot
