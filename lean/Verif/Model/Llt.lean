import Verif.Model.Ukf
/-!
# Eigen's Cholesky decomposition

`covariance.llt().matrixL()` (unscented_transform.hpp:84) in exact real arithmetic.  Eigen is not part of the
repository: the procedure is written from knowledge of `Eigen/src/Cholesky/LLT.h` (Eigen 3.3 and 3.4),
`llt_inplace<Scalar, Lower>::unblocked`, which Eigen uses for all matrices with fewer than 32 rows.  The matrices here have
5 or 6.  The code does not look at `info()`, so what is left in the matrix when the procedure gives up is used
like a factor.
-/

namespace Mot.Llt

open Matrix

variable {n : ℕ}

/-- body of the loop of `unblocked` in column `k`, on the matrix that is overwritten: `x` is `mat(k, k)` minus the squared norm of
the row to its left; `none` is `return k`; otherwise `mat(k, k) = sqrt(x)`,
and the rest of the column becomes `(A21 - A20 * A10ᵀ) / sqrt(x)` -/
noncomputable def step (k : Fin n) (A : Matrix (Fin n) (Fin n) ℝ) : Option (Matrix (Fin n) (Fin n) ℝ) :=
  let x := A k k - ∑ l with l < k, A k l ^ 2
  if x ≤ 0 then none
  else some fun i j =>
    if j = k then
      if i = k then √x
      else if k < i then (A i k - ∑ l with l < k, A i l * A k l) / √x
      else A i j
    else A i j

/-- the loop of `unblocked` over the given columns: the overwritten matrix, and the column in which the loop was left -/
noncomputable def loop : List (Fin n) → Matrix (Fin n) (Fin n) ℝ → Matrix (Fin n) (Fin n) ℝ × Option (Fin n)
  | [], A => (A, none)
  | k :: ks, A => match step k A with
    | none => (A, some k)
    | some A' => loop ks A'

/-- `unblocked` -/
noncomputable def unblocked (P : Matrix (Fin n) (Fin n) ℝ) : Matrix (Fin n) (Fin n) ℝ × Option (Fin n) :=
  loop (List.finRange n) P

/-- `matrixL()`: the lower triangle, with zeros above -/
noncomputable def matrixL (P : Matrix (Fin n) (Fin n) ℝ) : Matrix (Fin n) (Fin n) ℝ := fun i j =>
  if j ≤ i then (unblocked P).1 i j else 0

/-- the column in which the decomposition gave up; `info()` is `NumericalIssue` if there is one and `Success`
otherwise -/
noncomputable def failed (P : Matrix (Fin n) (Fin n) ℝ) : Option (Fin n) := (unblocked P).2

end Mot.Llt

namespace Mot

/-- `covariance.llt().matrixL()`, unscented_transform.hpp:84 -/
noncomputable def eigenLlt : Chol := fun _ P => Llt.matrixL P

end Mot
