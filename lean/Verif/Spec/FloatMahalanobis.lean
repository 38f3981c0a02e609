import Mathlib.LinearAlgebra.Matrix.NonsingularInverse
import Mathlib.LinearAlgebra.Matrix.Notation
import Mathlib.Algebra.Order.Field.Rat
/-!
# Conditioning of a 3×3 matrix
-/

namespace Mot.Spec

/-- a cofactor with all products counted as positive (indices modulo 3) -/
def absCofactor (C : Matrix (Fin 3) (Fin 3) ℚ) (i j : Fin 3) : ℚ :=
  |C (i + 1) (j + 1)| * |C (i + 2) (j + 2)| + |C (i + 1) (j + 2)| * |C (i + 2) (j + 1)|

/-- the determinant with all products counted as positive -/
def absDet (C : Matrix (Fin 3) (Fin 3) ℚ) : ℚ :=
  |C 0 0| * absCofactor C 0 0 + |C 1 0| * absCofactor C 1 0 + |C 2 0| * absCofactor C 2 0

/-- how much cancellation there is in the determinant: at least 1, and 1 for a diagonal matrix -/
def cancellation (C : Matrix (Fin 3) (Fin 3) ℚ) : ℚ := absDet C / |C.det|

/-- the squared Mahalanobis distance `dᵀ C⁻¹ d` -/
noncomputable def mahalanobisSq (C : Matrix (Fin 3) (Fin 3) ℚ) (d : Fin 3 → ℚ) : ℚ :=
  ∑ i, ∑ j, d i * C⁻¹ i j * d j

/-- the same with all products counted as positive -/
def absMahalanobisSq (C : Matrix (Fin 3) (Fin 3) ℚ) (d : Fin 3 → ℚ) : ℚ :=
  ∑ i, ∑ j, |d i| * (absCofactor C j i / |C.det|) * |d j|

end Mot.Spec
