import Verif.Proofs.Indefinite
import Verif.Props.Ukf
/-!
# C42, the exception: predictions with a negative variance
-/

namespace Mot.Props

open Mot Matrix Spec

/-- C42 needs the centre weight not to be negative: a valid CTRV object with a positive
definite covariance, predicted one second ahead by `UnscentedTransform{1, 2, -2}` (the
usual α = 1, β = 2, κ = 3 - n), gets a negative variance of the x position. -/
theorem C42_negative_variance {chol : Chol} (hchol : IsLlt chol) :
    ∃ o p : DynObj CtrvState CtrvCov, MotionLaws.Valid o.state ∧ o.covariance.PosDef ∧
      predict o (o.timestamp + 1) (unscentedTransform chol 1 2 (-2)) = .ok p ∧
      p.covariance 0 0 < 0 ∧ ¬ p.covariance.PosSemidef := by
  obtain ⟨s, C, h, hC⟩ := coupled_predict hchol (-2)
  have hneg : C 0 0 < 0 := by rw [hC]; norm_num
  refine ⟨⟨0, eastState, coupledCov, ⟨[1]⟩, .smallVehicle⟩, ⟨1, s, C, ⟨[1]⟩, .smallVehicle⟩, Angle.valid_ofRad _,
    coupledCov_cholesky.posDef, ?_, hneg, fun hp => absurd (hp.diag_nonneg (i := 0)) (not_le.2 hneg)⟩
  have := (C37_swapped chol 1 2 (-2) 1
    (⟨0, eastState, coupledCov, ⟨[1]⟩, .smallVehicle⟩ : DynObj CtrvState CtrvCov)).2 s C (by
      show ukfPredict chol eastState coupledCov (1 - 0) 1 (-2) 2 = _
      rw [sub_zero]; exact h)
  simpa using this

/-- C42: the exchange of `beta` and `kappa` (C37) is the reason.  With these β and κ in the
right order the predicted covariance of every CTRV object is positive semidefinite, for every
α with 1/2 ≤ α² ≤ 3. -/
theorem C42_right_order (chol : Chol) (s s' : CtrvState) (P P' : CtrvCov) (dt α : ℝ)
    (h0 : 1 / 2 ≤ α ^ 2) (h1 : α ^ 2 ≤ 3)
    (h : ukfPredict chol s P dt α 2 (-2) = .ok (s', P')) : P'.PosSemidef := by
  apply (C42_valid_covariance chol s s' P P' dt α 2 (-2) h).2
  rw [lambda_sum]
  unfold generateLambda
  push_cast
  rw [← sq]
  generalize α ^ 2 = u at *
  have hu : 0 < u := by linarith
  rw [show (u * (5 + -2) - 5) / (u * (5 + -2)) + (1 - u + 2) = (4 * u - u * u - 5 / 3) / u by
    field_simp; ring]
  exact div_nonneg (by nlinarith) hu.le

/-- such a prediction exists -/
example (chol : Chol) : ∃ s' P', ukfPredict chol eastState coupledCov 1 1 2 (-2) = .ok (s', P') := by
  obtain ⟨r, hr⟩ := (C42_defined_iff chol eastState coupledCov 1 1 2 (-2)).2 (by norm_num)
  exact ⟨r.1, r.2, hr⟩

/-- a factorisation as required exists -/
example : ∃ chol : Chol, IsLlt chol := exists_llt

end Mot.Props
