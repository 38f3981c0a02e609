import Mathlib.LinearAlgebra.Matrix.Notation
import Mathlib.Data.Real.Basic
/-!
# Statistical distance
-/

namespace Mot

open Matrix

/-- `d` is the smallest number such that in every direction `w` the deviation `δ` is at
most `d` standard deviations of the covariance `C` (the standard deviation of the
component along `w` is `√(wᵀ C w)`). -/
def IsStatDistance (C : Matrix (Fin 3) (Fin 3) ℝ) (δ : Fin 3 → ℝ) (d : ℝ) : Prop :=
  IsLeast {d | 0 ≤ d ∧ ∀ w : Fin 3 → ℝ, (w ⬝ᵥ δ) ^ 2 ≤ d ^ 2 * (w ⬝ᵥ (C *ᵥ w))} d

/-- the rows and columns of a state covariance that belong to x, y and yaw -/
def poseBlock {n : ℕ} (P : Matrix (Fin (n + 4)) (Fin (n + 4)) ℝ) : Matrix (Fin 3) (Fin 3) ℝ :=
  P.submatrix ![0, 1, 3] ![0, 1, 3]

end Mot
