import Verif.Model.Fusing
import Verif.Spec.Fusing
import Mathlib.Topology.Instances.Matrix
/-!
# Vocabulary for statements about repeated fusing
-/

namespace Mot.Spec

open Matrix

/-- `f 0`, `f 1`, … is a track to which the detections `d 0`, `d 1`, … are fused one after another -/
structure FusedRun {S : Type} {n : ℕ} [MotionModel S n] (t : DynObj S (Matrix (Fin n) (Fin n) ℝ))
    (d f : ℕ → DynObj S (Matrix (Fin n) (Fin n) ℝ)) : Prop where
  start : f 0 = t
  step : ∀ k, fusePair (f k) (d k) = .ok (f (k + 1))

/-- the same for bare vectors and matrices, with `generate_weight` and
`compute_covariance_intersection`: means `m` and covariances `C`, detections `z` with covariances `R` -/
structure VectorRun {n : ℕ} (z : ℕ → Fin n → ℝ) (R : ℕ → Matrix (Fin n) (Fin n) ℝ) (m : ℕ → Fin n → ℝ)
    (C : ℕ → Matrix (Fin n) (Fin n) ℝ) : Prop where
  step : ∀ k, ∃ w, generateWeight (C k)⁻¹ (R k)⁻¹ = some w ∧
    covIntersection (m k) (C k)⁻¹ (z k) (R k)⁻¹ w = some (m (k + 1), C (k + 1))

end Mot.Spec
