import Verif.Spec.Ukf
import Verif.Model.Llt
/-!
# Vocabulary for statements about the Cholesky decomposition
-/

namespace Mot.Spec

open Matrix

/-- the upper left `m × m` block -/
def leading {n : ℕ} (P : Matrix (Fin n) (Fin n) ℝ) (m : ℕ) (h : m ≤ n) : Matrix (Fin m) (Fin m) ℝ :=
  P.submatrix (Fin.castLE h) (Fin.castLE h)

/-- the lower triangle with the diagonal -/
def lowerPart {n : ℕ} (P : Matrix (Fin n) (Fin n) ℝ) : Matrix (Fin n) (Fin n) ℝ := fun i j => if j ≤ i then P i j else 0

end Mot.Spec
