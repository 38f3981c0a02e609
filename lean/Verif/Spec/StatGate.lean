import Verif.Spec.Distance
import Verif.Spec.Gate
/-!
Specification for C134: how sure a track is of its pose.
-/

namespace Mot.Spec

open Matrix

/-- The covariance of the object is positive definite, and the variance of its x, y and heading along every
direction of unit length is between `l` and `L`. -/
def SureWithin (l L : ℝ) : MotObj → Prop
  | .inl o => o.covariance.PosDef ∧ ∀ w : Fin 3 → ℝ, l * (w ⬝ᵥ w) ≤ w ⬝ᵥ (poseBlock (n := 1) o.covariance *ᵥ w) ∧
      w ⬝ᵥ (poseBlock (n := 1) o.covariance *ᵥ w) ≤ L * (w ⬝ᵥ w)
  | .inr o => o.covariance.PosDef ∧ ∀ w : Fin 3 → ℝ, l * (w ⬝ᵥ w) ≤ w ⬝ᵥ (poseBlock (n := 2) o.covariance *ᵥ w) ∧
      w ⬝ᵥ (poseBlock (n := 2) o.covariance *ᵥ w) ≤ L * (w ⬝ᵥ w)

end Mot.Spec
