import Mathlib.Data.Real.Basic
import Mathlib.Data.Matrix.Mul
/-!
# What a covariance says about the truth
-/

namespace Mot.Spec

open Matrix

/-- The error `e` is at most `k` standard deviations of the covariance `P` in every direction `u` that
involves only the variables in `I`; the standard deviation of the component along `u` is `√(uᵀ P u)`. -/
def Covers {n : ℕ} (P : Matrix (Fin n) (Fin n) ℝ) (k : ℝ) (I : Set (Fin n)) (e : Fin n → ℝ) : Prop :=
  ∀ u : Fin n → ℝ, (∀ i, i ∉ I → u i = 0) → (u ⬝ᵥ e) ^ 2 ≤ k ^ 2 * (u ⬝ᵥ (P *ᵥ u))

end Mot.Spec
