import Verif.Model.FloatUt
import Mathlib.LinearAlgebra.Matrix.Notation
/-!
# The Mahalanobis score in floating-point arithmetic

`mahalanobis_distance` (ctrv_model.hpp:363-379, ctra_model.hpp:329-346) as it is computed, in
`float` after the poses have been cast from `double`.  The two functions have the same body.

The inverse of a 3×3 matrix is Eigen's (`compute_inverse` for fixed size 3): cofactors, the
determinant along the first column, one division, and products with the reciprocal of the
determinant.  Sums of three products are taken in any order.  Not modelled: the sign of zero, so
the sign of an infinity obtained by dividing by a determinant of zero means nothing and no theorem
uses it.  No contraction to fused multiply-add.
-/

namespace Mot

local infixl:65 " ⊟ " => FP.sub binary32
local infixl:70 " ⊠ " => FP.mul binary32
local infixl:70 " ⊘ " => FP.div binary32

/-- components of the pose in the order of the code -/
def FPose.coord (p : FPose) : Fin 3 → FP := ![p.x, p.y, p.yaw]

/-- `mean_pose - point_pose`, ctrv_model.hpp:366-372, ctra_model.hpp:332-339 -/
def poseDiffF (mean point : FPose) (i : Fin 3) : FP :=
  mean.toFloat.coord i ⊟ point.toFloat.coord i

/-- `pose_cov`, ctrv_model.hpp:374-376, ctra_model.hpp:341-343: rows and columns 0, 1 and 3 of a
covariance with `n ≥ 4` rows (5 for CTRV, 6 for CTRA) -/
def poseCovF {n : ℕ} (h : 4 ≤ n) (P : Fin n → Fin n → FP) (i j : Fin 3) : FP :=
  let k : Fin 3 → Fin n := ![⟨0, by omega⟩, ⟨1, by omega⟩, ⟨3, by omega⟩]
  P (k i) (k j)

/-- cofactor of a 3×3 matrix (Eigen's `cofactor_3x3`; indices modulo 3) -/
def cofactorF (C : Fin 3 → Fin 3 → FP) (i j : Fin 3) : FP :=
  C (i + 1) (j + 1) ⊠ C (i + 2) (j + 2) ⊟ C (i + 1) (j + 2) ⊠ C (i + 2) (j + 1)

/-- `d` is a determinant as Eigen computes it before inverting -/
def IsDet3F (C : Fin 3 → Fin 3 → FP) (d : FP) : Prop :=
  SumsTo binary32 [cofactorF C 0 0 ⊠ C 0 0, cofactorF C 1 0 ⊠ C 1 0, cofactorF C 2 0 ⊠ C 2 0] d

/-- the inverse with a given determinant -/
def inverse3F (C : Fin 3 → Fin 3 → FP) (d : FP) (i j : Fin 3) : FP :=
  cofactorF C j i ⊠ (.fin 1 ⊘ d)

/-- `s` is `diff.transpose() * A * diff` -/
def IsFormF (A : Fin 3 → Fin 3 → FP) (diff : Fin 3 → FP) (s : FP) : Prop :=
  ∃ v : Fin 3 → FP,
    (∀ j, SumsTo binary32 [diff 0 ⊠ A 0 j, diff 1 ⊠ A 1 j, diff 2 ⊠ A 2 j] (v j)) ∧
    SumsTo binary32 [v 0 ⊠ diff 0, v 1 ⊠ diff 1, v 2 ⊠ diff 2] s

/-- `r` is a result of `mahalanobis_distance` for a pose covariance, ctrv_model.hpp:363-379,
ctra_model.hpp:329-346 -/
def IsMahalanobisF (C : Fin 3 → Fin 3 → FP) (mean point : FPose) (r : FP) : Prop :=
  ∃ d, IsDet3F C d ∧ ∃ s, IsFormF (inverse3F C d) (poseDiffF mean point) s ∧ r = FP.sqrt binary32 s

end Mot
