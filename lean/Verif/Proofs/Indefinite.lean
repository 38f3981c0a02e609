import Verif.Proofs.Ukf
import Mathlib.LinearAlgebra.Matrix.Notation
import Mathlib.Tactic.FinCases
/-!
# A prediction with a negative variance

A CTRV object driving straight on, with a covariance that couples the heading to position
and speed.
-/

namespace Mot

open Matrix Spec Real

/-- `√7` times the Cholesky factor of `coupledCov` -/
noncomputable def coupledRoot : Matrix (Fin 5) (Fin 5) ℝ :=
  !![1, 0, 0, 0, 0; 0, 1, 0, 0, 0; 0, 0, 1, 0, 0; π / 2, π / 2, π / 2, π / 2, 0; 0, 0, 0, 0, π]

/-- a covariance of a CTRV state -/
noncomputable def coupledCov : CtrvCov := (1 / 7 : ℝ) • (coupledRoot * coupledRootᵀ)

/-- a CTRV object at the origin, at 7 m/s along the x axis -/
noncomputable def eastState : CtrvState := ⟨0, 0, 7, Angle.ofRad 0, 0⟩

theorem coupledCov_cholesky : IsCholesky ((1 / √7 : ℝ) • coupledRoot) coupledCov where
  lower i j hij := by
    rw [Matrix.smul_apply]
    have : coupledRoot i j = 0 := by
      fin_cases i <;> fin_cases j <;> first | rfl | exact absurd hij (by decide)
    rw [this, smul_zero]
  diag i := by
    rw [Matrix.smul_apply, smul_eq_mul]
    have hp := pi_pos
    have : 0 < coupledRoot i i := by
      fin_cases i
      · exact one_pos
      · exact one_pos
      · exact one_pos
      · exact half_pos hp
      · exact hp
    positivity
  factor := by
    unfold coupledCov
    rw [transpose_smul, Matrix.smul_mul, Matrix.mul_smul, smul_smul]
    congr 1
    rw [div_mul_div_comm, Real.mul_self_sqrt (by norm_num), one_mul]

/-- predicted x coordinate of a point with heading `c` from `eastState` -/
theorem east_x (x y v c : ℝ) {w : ℝ} (h : w = 0) :
    (CtrvState.next ⟨x, y, v, Angle.ofRad c, w⟩ 1).x = x + v * cos c := by
  subst h
  rw [(CtrvState.next_straight (s := ⟨x, y, v, Angle.ofRad c, 0⟩) unitsEq_zero_zero 1).1]
  show x + v * cos (Angle.ofRad c).getAngle * 1 = _
  rw [Angle.cos_getAngle_ofRad, mul_one]

/-- x coordinates of the predicted points -/
theorem coupled_rows :
    (predictedRows eastState ((1 / √7 : ℝ) • coupledRoot) √7 1).map (fun v => v 0) =
      [7, 1, -1, 0, 0, 0, 0, 0, 0, 0, 0] := by
  have h7 : √7 * (1 / √7) = (1 : ℝ) := by
    rw [mul_one_div, div_self (Real.sqrt_ne_zero'.2 (by norm_num))]
  have hc : ∀ j, √7 • ((1 / √7 : ℝ) • coupledRoot).col j = coupledRoot.col j := by
    intro j
    funext i
    rw [Pi.smul_apply, col_apply, Matrix.smul_apply, smul_eq_mul, smul_eq_mul, ← mul_assoc, h7,
      one_mul, col_apply]
  have hrow : ∀ p : CtrvState, rotateYaw (MotionModel.toVec (MotionModel.next p 1) : Fin 5 → ℝ) 0 =
      (p.next 1).x := by
    intro p
    unfold rotateYaw
    rw [if_neg (by rintro ⟨h, -⟩; exact absurd h (by decide))]
    rfl
  have hpi : dblMin ≤ π := by
    have := pi_gt_three
    have h2 : dblMin ≤ 1 := by
      unfold dblMin
      exact div_le_one_of_le₀ (one_le_pow₀ (by norm_num)) (by positivity)
    linarith
  have hturn : ∀ {w : ℝ}, |w| = π → (CtrvState.next ⟨0, 0, 7, Angle.ofRad 0, w⟩ 1).x = 0 := by
    intro w hw
    have hn : ¬ unitsEq w 0 := by rw [unitsEq_zero_iff, hw]; exact not_lt.2 hpi
    rw [(CtrvState.next_turn (s := ⟨0, 0, 7, Angle.ofRad 0, w⟩) hn 1).1]
    show 0 + 7 / w * (sin ((Angle.ofRad 0).getAngle + w * 1) - sin (Angle.ofRad 0).getAngle) = 0
    rw [Angle.getAngle_ofRad_of_range ⟨le_rfl, by linarith [pi_pos]⟩]
    rcases eq_or_eq_neg_of_abs_eq hw with rfl | rfl <;> simp
  have hadd : ∀ d : Fin 5 → ℝ, eastState.add (CtrvState.ofVec d) =
      ⟨0 + d 0, 0 + d 1, 7 + d 2, Angle.ofRad (0 + d 3), 0 + d 4⟩ := by
    intro d
    unfold CtrvState.add CtrvState.ofVec eastState
    simp only [Angle.add_ofRad]
  have hsub : ∀ d : Fin 5 → ℝ, eastState.sub (CtrvState.ofVec d) =
      ⟨0 - d 0, 0 - d 1, 7 - d 2, Angle.ofRad (0 - d 3), 0 - d 4⟩ := by
    intro d
    unfold CtrvState.sub CtrvState.ofVec eastState
    simp only [Angle.sub_ofRad]
  have e0 : coupledRoot.col 0 = ![1, 0, 0, π / 2, 0] := by funext i; fin_cases i <;> rfl
  have e1 : coupledRoot.col 1 = ![0, 1, 0, π / 2, 0] := by funext i; fin_cases i <;> rfl
  have e2 : coupledRoot.col 2 = ![0, 0, 1, π / 2, 0] := by funext i; fin_cases i <;> rfl
  have e3 : coupledRoot.col 3 = ![0, 0, 0, π / 2, 0] := by funext i; fin_cases i <;> rfl
  have e4 : coupledRoot.col 4 = ![0, 0, 0, 0, π] := by funext i; fin_cases i <;> rfl
  have a : ∀ j, j ≠ 4 → ((eastState.add (CtrvState.ofVec (coupledRoot.col j))).next 1).x =
      coupledRoot 0 j := by
    intro j hj
    rw [hadd, east_x _ _ _ _ (by fin_cases j <;> first | exact absurd rfl hj | exact zero_add _)]
    have : coupledRoot.col j 3 = π / 2 := by
      fin_cases j <;> first | exact absurd rfl hj | rfl
    rw [this, zero_add, zero_add, cos_pi_div_two, mul_zero, add_zero, col_apply]
  have b : ∀ j, j ≠ 4 → ((eastState.sub (CtrvState.ofVec (coupledRoot.col j))).next 1).x =
      -coupledRoot 0 j := by
    intro j hj
    rw [hsub, east_x _ _ _ _ (by fin_cases j <;> first | exact absurd rfl hj | exact sub_zero _)]
    have : coupledRoot.col j 3 = π / 2 := by
      fin_cases j <;> first | exact absurd rfl hj | rfl
    rw [this, zero_sub, zero_sub, cos_neg, cos_pi_div_two, mul_zero, add_zero, col_apply]
  have a4 : ((eastState.add (CtrvState.ofVec (coupledRoot.col 4))).next 1).x = 0 := by
    rw [hadd]
    have := hturn (w := 0 + π) (by rw [zero_add, abs_of_pos pi_pos])
    refine Eq.trans ?_ this
    rw [e4]
    simp
  have b4 : ((eastState.sub (CtrvState.ofVec (coupledRoot.col 4))).next 1).x = 0 := by
    rw [hsub]
    have := hturn (w := 0 - π) (by rw [zero_sub, abs_neg, abs_of_pos pi_pos])
    refine Eq.trans ?_ this
    rw [e4]
    simp
  have c : (eastState.next 1).x = 7 := by
    rw [eastState, east_x _ _ _ _ rfl, cos_zero]
    norm_num
  have hf : List.finRange 5 = [0, 1, 2, 3, 4] := by decide
  unfold predictedRows sigmaLoop
  simp only [hf, List.flatMap_cons, List.flatMap_nil, List.map_cons, List.map_nil, List.append_nil,
    List.cons_append, List.nil_append, hrow, hc, c]
  have k := fun j hj => (show (CtrvState.next (MotionModel.add eastState
    (MotionModel.ofVec (coupledRoot.col j))) 1).x = _ from a j hj)
  have l := fun j hj => (show (CtrvState.next (MotionModel.sub eastState
    (MotionModel.ofVec (coupledRoot.col j))) 1).x = _ from b j hj)
  have k4 := (show (CtrvState.next (MotionModel.add eastState
    (MotionModel.ofVec (coupledRoot.col 4))) 1).x = _ from a4)
  have l4 := (show (CtrvState.next (MotionModel.sub eastState
    (MotionModel.ofVec (coupledRoot.col 4))) 1).x = _ from b4)
  rw [k 0 (by decide), k 1 (by decide), k 2 (by decide), k 3 (by decide), k4,
    l 0 (by decide), l 1 (by decide), l 2 (by decide), l 3 (by decide), l4]
  have z : ∀ j : Fin 5, j ≠ 0 → coupledRoot 0 j = 0 := by
    intro j hj; fin_cases j <;> first | exact absurd rfl hj | rfl
  rw [z 1 (by decide), z 2 (by decide), z 3 (by decide), neg_zero]
  rfl

/-- The x variance of the predicted object, with centre weight `2/7 + β`. -/
theorem coupled_predict {chol : Chol} (hchol : IsLlt chol) (β : ℝ) :
    ∃ s C, ukfPredict chol eastState coupledCov 1 1 β 2 = .ok (s, C) ∧
      C 0 0 = 10 + 25 * β + 1 / 7 := by
  have hL : chol 5 coupledCov = (1 / √7 : ℝ) • coupledRoot :=
    (hchol 5 _ coupledCov_cholesky.posDef).unique coupledCov_cholesky
  have hN : (1 : ℝ) ^ 2 * (((5 : ℕ) : ℝ) + 2) = 7 := by norm_num
  rw [ukfPredict_eq chol eastState coupledCov 1 1 β 2 (by rw [hN]; norm_num), hN, hL]
  have hr := coupled_rows
  obtain ⟨r, l, hrl⟩ : ∃ r l, predictedRows eastState ((1 / √7 : ℝ) • coupledRoot) √7 1 = r :: l :=
    ⟨_, _, rfl⟩
  rw [hrl] at hr ⊢
  rw [List.map_cons, List.cons.injEq] at hr
  have hlen : l.length = 2 * 5 := by
    have := congrArg List.length hr.2
    simpa using this
  rw [computeUt_cons _ _ _ _ _ hlen]
  refine ⟨_, _, rfl, ?_⟩
  have hsum : l.sum 0 = 0 := by
    have : l.sum 0 = (l.map fun v => v 0).sum := by
      clear hr hlen hrl
      induction l with
      | nil => rfl
      | cons p l ih => rw [List.sum_cons, Pi.add_apply, ih, List.map_cons, List.sum_cons]
    rw [this, hr.2]
    norm_num
  have hlam : generateLambda 5 1 2 = 2 := by unfold generateLambda; norm_num
  rw [hlam]
  have hx : ((2 / 7 : ℝ) • r + (1 / (2 * 7) : ℝ) • l.sum) 0 = 2 := by
    rw [Pi.add_apply, Pi.smul_apply, Pi.smul_apply, hsum, hr.1]
    norm_num
  have hcov : ∀ x : Fin 5 → ℝ, ((l.map fun p => vecMulVec (p - x) (p - x)).sum) 0 0 =
      ((l.map fun v => v 0).map fun y => (y - x 0) * (y - x 0)).sum := by
    intro x
    clear hr hlen hrl hsum hx
    induction l with
    | nil => rfl
    | cons p l ih =>
      rw [List.map_cons, List.sum_cons, Matrix.add_apply, ih, List.map_cons, List.map_cons,
        List.sum_cons]
      rfl
  rw [Matrix.add_apply, Matrix.smul_apply, Matrix.smul_apply, hcov, vecMulVec_apply, Pi.sub_apply,
    hx, hr.1, hr.2]
  norm_num
  ring

end Mot
