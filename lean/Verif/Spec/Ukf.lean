import Verif.Model.Ukf
import Verif.Spec.Circle
import Mathlib.LinearAlgebra.Matrix.PosDef
/-!
# Vocabulary for statements about prediction
-/

namespace Mot.Spec

open Matrix

/-- `L` is the Cholesky factor of `P` -/
structure IsCholesky {n : ℕ} (L P : Matrix (Fin n) (Fin n) ℝ) : Prop where
  lower : ∀ i j, i < j → L i j = 0
  diag : ∀ i, 0 < L i i
  factor : L * Lᵀ = P

/-- documented contract of `Eigen::LLT` -/
def IsLlt (chol : Chol) : Prop := ∀ n (P : Matrix (Fin n) (Fin n) ℝ), P.PosDef →
  IsCholesky (chol n P) P

/-- `v` and `w` agree, the headings (variable 3) modulo 2π -/
def SameUpToTurns {n : ℕ} (v w : Fin n → ℝ) : Prop :=
  ∀ i : Fin n, if i.1 = 3 then SameDir (v i) (w i) else v i = w i

/-- mean and covariance of a weighted list of points, with separate weights -/
structure IsWeightedMeanCov {n : ℕ} (rows : List (Fin n → ℝ)) (wm wc : List ℝ)
    (x : Fin n → ℝ) (P : Matrix (Fin n) (Fin n) ℝ) : Prop where
  lengths : wm.length = rows.length ∧ wc.length = rows.length
  mean : ∀ i, x i = ∑ k : Fin rows.length, wm.getD k 0 * rows.get k i
  cov : ∀ i j, P i j = ∑ k : Fin rows.length, wc.getD k 0 * (rows.get k i - x i) * (rows.get k j - x j)

end Mot.Spec

namespace Mot.Spec

open Matrix

/-- the point `x` followed by `x + r·L₀`, `x − r·L₀`, `x + r·L₁`, … for the columns of `L`,
without wrapping the heading -/
def sigmaSet {n : ℕ} (x : Fin n → ℝ) (L : Matrix (Fin n) (Fin n) ℝ) (r : ℝ) : List (Fin n → ℝ) :=
  x :: (List.finRange n).flatMap fun j => [x + r • L.col j, x - r • L.col j]

end Mot.Spec

namespace Mot.Spec

open Classical in
/-- The number of displacements `d j` of which one of `ψ + d j`, `ψ − d j` lies on the other
side of the heading 3.14159265359 than `ψ`. -/
noncomputable def crossings {n : ℕ} (ψ : ℝ) (d : Fin n → ℝ) : ℕ :=
  (Finset.univ.filter fun j => ψ ≤ 3.14159265359 ∧ 3.14159265359 < ψ + |d j| ∨
    3.14159265359 < ψ ∧ ψ - |d j| ≤ 3.14159265359).card

end Mot.Spec
