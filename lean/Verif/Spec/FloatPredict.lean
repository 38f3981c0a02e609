import Mathlib.Analysis.SpecialFunctions.Trigonometric.Basic
/-!
# Weighted mean and covariance of the unscented transform

In exact arithmetic, with weights λ/(n + λ) (mean), λ/(n + λ) + 1 - α² + β (covariance) of the
state and 1/(2(n + λ)) of the `2n` sigma points.
-/

namespace Mot.Spec

/-- mean of the value `y0` at the state and the values `ys` at the sigma points -/
noncomputable def utMean (n : ℕ) (Λ y0 : ℝ) (ys : List ℝ) : ℝ := (Λ * y0 + ys.sum / 2) / (n + Λ)

/-- covariance of two quantities -/
noncomputable def utCov (n : ℕ) (a b Λ y0 : ℝ) (ys : List ℝ) (z0 : ℝ) (zs : List ℝ) : ℝ :=
  (Λ / (n + Λ) + (1 - a ^ 2 + b)) * ((y0 - utMean n Λ y0 ys) * (z0 - utMean n Λ z0 zs)) +
    (List.zipWith (fun y z => (y - utMean n Λ y0 ys) * (z - utMean n Λ z0 zs)) ys zs).sum /
      (2 * (n + Λ))

/-- how much the weights of the mean amplify errors: the sum of their magnitudes -/
noncomputable def utCond (n : ℕ) (Λ : ℝ) : ℝ := (|Λ| + n) / |n + Λ|

/-- the same for the weights of the covariance -/
noncomputable def utCovCond (n : ℕ) (a b Λ : ℝ) : ℝ := |Λ| / |n + Λ| + 1 + a ^ 2 + |b| + n / |n + Λ|

/-- `b` and `t` are the same direction up to `ε` -/
def SameDirection (b t ε : ℝ) : Prop :=
  |Real.sin b - Real.sin t| ≤ ε ∧ |Real.cos b - Real.cos t| ≤ ε

end Mot.Spec
