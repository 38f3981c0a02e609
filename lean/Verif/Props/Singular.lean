import Verif.Proofs.Singular
import Verif.Props.LinearPart
import Verif.Props.Distance
/-!
# C115: whether prediction keeps covariances positive definite
-/

namespace Mot.Props

open Mot Matrix Spec

private theorem singular_of_row {n : ℕ} {M : Matrix (Fin n) (Fin n) ℝ} {k : Fin n}
    (h : ∀ i, M k i = 0) : M.det = 0 := Matrix.det_eq_zero_of_row_eq_zero k h

/-- C115: it does not.  A standing object with positive definite covariance, predicted by one
second with `default_unscented_transform`, has the x variance 0.  Its covariance cannot be
inverted: the Mahalanobis distances from it and its fusion with any object are undefined. -/
theorem C115_singular {chol : Chol} (hchol : IsLlt chol) :
    ∃ o p : DynObj CtrvState CtrvCov, MotionLaws.Valid o.state ∧ o.covariance.PosDef ∧
      predict o (o.timestamp + 1) (defaultUt chol) = .ok p ∧ p.covariance 0 0 = 0 ∧
      ¬ p.covariance.PosDef ∧
      (∀ s : CtrvState, p.state.mahalanobis p.covariance s = none) ∧
      ∀ d : DynObj CtrvState CtrvCov, fusePair p d = .ub .notReal := by
  obtain ⟨s, C, h, hC⟩ := standing_predict hchol
  have hpose : ∀ i, (CtrvCov.pose C) 0 i = 0 := by
    intro i
    fin_cases i
    · exact hC 0
    · exact hC 1
    · exact hC 3
  refine ⟨⟨0, standingState, singularCov, ⟨[1]⟩, .pedestrian⟩, ⟨1, s, C, ⟨[1]⟩, .pedestrian⟩,
    Angle.valid_ofRad _, singularCov_cholesky.posDef, ?_, hC 0, fun hp => ?_, fun s' => ?_,
    fun d => ?_⟩
  · have := (C37_swapped chol 1 2 1 1
      (⟨0, standingState, singularCov, ⟨[1]⟩, .pedestrian⟩ : DynObj CtrvState CtrvCov)).2 s C (by
        show ukfPredict chol standingState singularCov (1 - 0) 1 1 2 = _
        rw [sub_zero]; exact h)
    simpa [defaultUt] using this
  · exact absurd hp.det_pos (by rw [singular_of_row hC]; exact lt_irrefl _)
  · unfold CtrvState.mahalanobis poseMahalanobis
    dsimp only
    rw [if_neg]
    rw [singular_of_row hpose]
    simp
  · unfold fusePair
    have : inverse? C = none := by
      unfold inverse?
      rw [if_neg]
      rw [singular_of_row hC]
      simp
    simp only [this]

/-- C115: also diagonal covariances may become singular, without the object moving: if the
spread of the headings is a whole turn, prediction by no time gives the heading variance 0. -/
theorem C115_turn {chol : Chol} (hchol : IsLlt chol) (s : CtrvState) {d : Fin 5 → ℝ}
    (hd : ∀ i, 0 < d i) (h3 : d 3 = 4 * Real.pi ^ 2 / 7) (t : ℝ) (u : Uuid) (c : SemanticClass) :
    ∃ p, predict (⟨t, s, Matrix.diagonal d, u, c⟩ : DynObj CtrvState CtrvCov) t (defaultUt chol) =
      .ok p ∧ p.covariance 3 3 = 0 ∧ ¬ p.covariance.PosDef := by
  have hr : √7 * √(d 3) = 2 * Real.pi := by
    rw [← Real.sqrt_mul (by norm_num), h3,
      show 7 * (4 * Real.pi ^ 2 / 7) = (2 * Real.pi) ^ 2 by ring,
      Real.sqrt_sq (by linarith [Real.pi_pos])]
  obtain ⟨s', C, h, hC⟩ := turn_predict hchol s hd hr
  refine ⟨⟨t, s', C, u, c⟩, ?_, hC 3, fun hp =>
    absurd hp.det_pos (by rw [singular_of_row hC]; exact lt_irrefl _)⟩
  have := (C37_swapped chol 1 2 1 t
    (⟨t, s, Matrix.diagonal d, u, c⟩ : DynObj CtrvState CtrvCov)).2 s' C (by
      show ukfPredict chol s (Matrix.diagonal d) (t - t) 1 1 2 = _
      rw [sub_self]; exact h)
  simpa [defaultUt] using this

/-- C115: from a diagonal covariance it does, for every duration, if the spread of the headings
is not a whole number of half turns. -/
theorem C115_diagonal {chol : Chol} (hchol : IsLlt chol) {o : DynObj CtrvState CtrvCov}
    {d : Fin 5 → ℝ} (hP : o.covariance = Matrix.diagonal d) (hd : ∀ i, 0 < d i)
    (hs : Real.sin √(7 * d 3) ≠ 0) (time : ℝ) :
    ∃ p, predict o time (defaultUt chol) = .ok p ∧ p.covariance.PosDef := by
  have hN : (1 : ℝ) ^ 2 * (((5 : ℕ) : ℝ) + 2) = 7 := by norm_num
  obtain ⟨s', C, h, hC⟩ := ctrv_posDef hchol o.state hd (dt := time - o.timestamp) (α := 1) (β := 1)
    (κ := 2) (by rw [hN]; norm_num) (by
      rw [hN]; unfold generateLambda; norm_num) (by
      rw [hN, ← Real.sqrt_mul (by norm_num)]; exact hs)
  rw [← hP] at h
  exact ⟨_, (C37_swapped chol 1 2 1 time o).2 s' C h, hC⟩

/-- C115 for CTRA objects and diagonal covariances. -/
theorem C115_diagonal_ctra {chol : Chol} (hchol : IsLlt chol) {o : DynObj CtraState CtraCov}
    {d : Fin 6 → ℝ} (hP : o.covariance = Matrix.diagonal d) (hd : ∀ i, 0 < d i)
    (hs : Real.sin √(8 * d 3) ≠ 0) (time : ℝ) :
    ∃ p, predict o time (defaultUt chol) = .ok p ∧ p.covariance.PosDef := by
  have hN : (1 : ℝ) ^ 2 * (((6 : ℕ) : ℝ) + 2) = 8 := by norm_num
  obtain ⟨s', C, h, hC⟩ := ctra_posDef hchol o.state hd (dt := time - o.timestamp) (α := 1) (β := 1)
    (κ := 2) (by rw [hN]; norm_num) (by
      rw [hN]; unfold generateLambda; norm_num) (by
      rw [hN, ← Real.sqrt_mul (by norm_num)]; exact hs)
  rw [← hP] at h
  exact ⟨_, (C37_swapped chol 1 2 1 time o).2 s' C h, hC⟩

/-- C115: in particular if the standard deviation of the heading is positive and at most 1. -/
theorem C115_one_radian {chol : Chol} (hchol : IsLlt chol) {o : DynObj CtrvState CtrvCov}
    {d : Fin 5 → ℝ} (hP : o.covariance = Matrix.diagonal d) (hd : ∀ i, 0 < d i) (h3 : d 3 ≤ 1)
    (time : ℝ) : ∃ p, predict o time (defaultUt chol) = .ok p ∧ p.covariance.PosDef := by
  refine C115_diagonal hchol hP hd (ne_of_gt (Real.sin_pos_of_pos_of_lt_pi
    (Real.sqrt_pos.2 (by linarith [hd 3])) ?_)) time
  have h9 : √(7 * d 3) < √9 := Real.sqrt_lt_sqrt (by linarith [hd 3]) (by linarith)
  have : √9 = 3 := by rw [show (9 : ℝ) = 3 ^ 2 by norm_num, Real.sqrt_sq (by norm_num)]
  linarith [Real.pi_gt_three]

/-- C115, the same for CTRA objects. -/
theorem C115_one_radian_ctra {chol : Chol} (hchol : IsLlt chol) {o : DynObj CtraState CtraCov}
    {d : Fin 6 → ℝ} (hP : o.covariance = Matrix.diagonal d) (hd : ∀ i, 0 < d i) (h3 : d 3 ≤ 1)
    (time : ℝ) : ∃ p, predict o time (defaultUt chol) = .ok p ∧ p.covariance.PosDef := by
  refine C115_diagonal_ctra hchol hP hd (ne_of_gt (Real.sin_pos_of_pos_of_lt_pi
    (Real.sqrt_pos.2 (by linarith [hd 3])) ?_)) time
  have h9 : √(8 * d 3) < √9 := Real.sqrt_lt_sqrt (by linarith [hd 3]) (by linarith)
  have : √9 = 3 := by rw [show (9 : ℝ) = 3 ^ 2 by norm_num, Real.sqrt_sq (by norm_num)]
  linarith [Real.pi_gt_three]

/-- an object with such a covariance -/
example : ∃ o : DynObj CtrvState CtrvCov, ∃ d : Fin 5 → ℝ, o.covariance = Matrix.diagonal d ∧
    (∀ i, 0 < d i) ∧ d 3 ≤ 1 ∧ o.state.v = 3 :=
  ⟨⟨0, ⟨1, 2, 3, Angle.ofRad 4, 5⟩, Matrix.diagonal fun _ => 1 / 2, ⟨[1]⟩, .unknown⟩, fun _ => 1 / 2,
    rfl, fun _ => by norm_num, by norm_num, rfl⟩

end Mot.Props
