import Verif.Model.Fusing
import Verif.Spec.Fusing
/-!
# Vocabulary for statements about the uncertainty and the error of fused tracks
-/

namespace Mot.Spec

open Matrix

/-- the square of the distance of `x` from the estimate `m`, in standard deviations -/
noncomputable def errorSq {n : ℕ} (P : Matrix (Fin n) (Fin n) ℝ) (m x : Fin n → ℝ) : ℝ :=
  (x - m) ⬝ᵥ (P⁻¹ *ᵥ (x - m))

/-- the disagreement of `x` with a track and a detection: the weighted sum of the squared distances,
each in its own standard deviations, after the rotation that fusing applies to headings -/
noncomputable def disagreement {S : Type} {n : ℕ} [MotionModel S n] (w : ℝ) (t d : DynObj S (Matrix (Fin n) (Fin n) ℝ))
    (x : Fin n → ℝ) : ℝ :=
  w * errorSq t.covariance (rotateYaw (MotionModel.toVec t.state)) x +
    (1 - w) * errorSq d.covariance (rotateYaw (MotionModel.toVec d.state)) x

/-- the covariance is valid -/
def ValidCov : MotObj → Prop
  | .inl o => o.covariance.PosDef
  | .inr o => o.covariance.PosDef

/-- `f` and `o` have the same motion model and `f` is at most `c` times as uncertain as `o` -/
def CovAtMost (c : ℝ) : MotObj → MotObj → Prop
  | .inl f, .inl o => CovLE f.covariance (c • o.covariance)
  | .inr f, .inr o => CovLE f.covariance (c • o.covariance)
  | _, _ => False

/-- the covariance is symmetric and positive semidefinite -/
def CovSemidef : MotObj → Prop
  | .inl o => o.covariance.PosSemidef
  | .inr o => o.covariance.PosSemidef

/-- the object is at most as uncertain as `R₁` (CTRV) or `R₂` (CTRA), in every direction of the state space -/
def CovWithin (R₁ : CtrvCov) (R₂ : CtraCov) : MotObj → Prop
  | .inl o => CovLE o.covariance R₁
  | .inr o => CovLE o.covariance R₂

end Mot.Spec
