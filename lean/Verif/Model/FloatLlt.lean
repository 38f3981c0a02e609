import Verif.Model.FloatPredict
/-!
# Eigen's Cholesky decomposition in floating-point arithmetic

`covariance.llt().matrixL()` (unscented_transform.hpp:84) on the `float`s of a covariance.  Eigen is not part of the
repository: the procedure is written from knowledge of `Eigen/src/Cholesky/LLT.h` (Eigen 3.3 and 3.4),
`llt_inplace<Scalar, Lower>::unblocked`, which Eigen uses for all matrices with fewer than 32 rows; `Verif/Model/Llt.lean` has the
same procedure in exact arithmetic.  Eigen does not promise an order for the sums in `squaredNorm()` and in the product
`A20 * A10.adjoint()`, so the procedure is a relation (see `SumsTo`).  Fused multiply-add is not modelled.
-/

namespace Mot

/-- `x <= 0` (false for NaN) -/
def FP.le0 : FP → Bool
  | .nan => false
  | .inf s => s
  | .fin q => decide (q ≤ 0)

namespace LltF

variable {n : ℕ}

/-- the columns to the left of `k` -/
def left (k : Fin n) : List (Fin n) := (List.finRange n).filter (· < k)

/-- `x` is a result of `x = mat(k, k); if (k > 0) x -= A10.squaredNorm()` -/
def IsPivot (k : Fin n) (A : Matrix (Fin n) (Fin n) FP) (x : FP) : Prop :=
  if k.1 = 0 then x = A k k
  else ∃ s, SumsTo binary32 ((left k).map fun l => FP.mul binary32 (A k l) (A k l)) s ∧ x = FP.sub binary32 (A k k) s

/-- `A'` is a result of `mat(k, k) = x = sqrt(x); A21 -= A20 * A10.adjoint(); A21 /= x` -/
def IsColumn (k : Fin n) (A : Matrix (Fin n) (Fin n) FP) (x : FP) (A' : Matrix (Fin n) (Fin n) FP) : Prop :=
  A' k k = FP.sqrt binary32 x ∧
  (∀ i, k < i → ∃ y, SumsTo binary32 (A i k :: (left k).map fun l => (FP.mul binary32 (A i l) (A k l)).neg) y ∧
    A' i k = FP.div binary32 y (FP.sqrt binary32 x)) ∧
  ∀ i j, j ≠ k ∨ i < k → A' i j = A i j

/-- the loop of `unblocked` over the given columns, started with `A`, can leave `B` behind; `r` is the column in which it
returned early -/
inductive Loop : List (Fin n) → Matrix (Fin n) (Fin n) FP → Matrix (Fin n) (Fin n) FP → Option (Fin n) → Prop
  | nil (A) : Loop [] A A none
  | stop {k ks A x} : IsPivot k A x → x.le0 = true → Loop (k :: ks) A A (some k)
  | step {k ks A x A' B r} : IsPivot k A x → x.le0 = false → IsColumn k A x A' → Loop ks A' B r →
      Loop (k :: ks) A B r

end LltF

/-- `L` is a result of `covariance.llt().matrixL()`, unscented_transform.hpp:84; `r` is the column in which the decomposition
gave up (the code does not ask) -/
def IsLltF {n : ℕ} (P L : Matrix (Fin n) (Fin n) FP) (r : Option (Fin n)) : Prop :=
  ∃ B, LltF.Loop (List.finRange n) P B r ∧ ∀ i j, L i j = if j ≤ i then B i j else .fin 0

end Mot
