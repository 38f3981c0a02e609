import Verif.Model.Float
import Mathlib.LinearAlgebra.Matrix.Defs
import Mathlib.Data.Real.Basic
/-!
# Matrices of finite floating-point numbers
-/

namespace Mot.Spec

/-- the matrix of `float`s with the given values -/
def finite {n : ℕ} (P : Matrix (Fin n) (Fin n) ℚ) : Matrix (Fin n) (Fin n) FP := fun i j => .fin (P i j)

/-- the values as real numbers -/
def real {n : ℕ} (P : Matrix (Fin n) (Fin n) ℚ) : Matrix (Fin n) (Fin n) ℝ := fun i j => P i j

end Mot.Spec
