import Verif.Model.FloatPose
/-!
# Parameters of the unscented transform in floating-point arithmetic (unscented_transform.hpp)

`generate_lambda`, `generate_weights` and the scale of the sigma points as they are computed, in
`float` except for the constant 0.5 (`double`).  Not modelled: the sign of zero (the only zero that
is divided by is `n + lambda`, the sum of opposite numbers, which is +0).
-/

namespace Mot

local infixl:65 " ⊞ " => FP.add binary32
local infixl:65 " ⊟ " => FP.sub binary32
local infixl:70 " ⊠ " => FP.mul binary32
local infixl:70 " ⊘ " => FP.div binary32

/-- conversion of an integer to `float` -/
def intF (n : ℤ) : FP := FP.ofRat binary32 n

/-- `generate_lambda`, unscented_transform.hpp:37-40 -/
def lambdaF (n : ℤ) (α κ : FP) : FP := α ⊠ α ⊠ (intF n ⊞ κ) ⊟ intF n

/-- `n + lambda`, unscented_transform.hpp:54-56, and `covariance.rows() + lambda`, line 86 -/
def scaleF (n : ℤ) (lam : FP) : FP := intF n ⊞ lam

/-- the mean weight of the state, unscented_transform.hpp:54 -/
def wm0F (n : ℤ) (lam : FP) : FP := lam ⊘ scaleF n lam

/-- the covariance weight of the state, unscented_transform.hpp:55 -/
def wc0F (n : ℤ) (α β lam : FP) : FP :=
  (lam ⊘ scaleF n lam) ⊞ ((.fin 1 ⊟ α ⊠ α) ⊞ β)

/-- the weight of a sigma point, unscented_transform.hpp:56: `1 / (n + lambda)` is a `float`, the
product with 0.5 a `double`, converted to `float` -/
def wiF (n : ℤ) (lam : FP) : FP :=
  FP.conv binary32 (FP.mul binary64 (.fin (1 / 2)) (.fin 1 ⊘ scaleF n lam))

/-- `generate_weights`, unscented_transform.hpp:51-64 -/
def weightsF (n : ℕ) (α β lam : FP) : List FP × List FP :=
  (wm0F n lam :: List.replicate (2 * n) (wiF n lam),
   wc0F n α β lam :: List.replicate (2 * n) (wiF n lam))

/-- `std::sqrt(covariance.rows() + lambda)`, unscented_transform.hpp:86 -/
def spreadF (n : ℤ) (lam : FP) : FP := FP.sqrt binary32 (scaleF n lam)

/-- `x` is the rounded sum of a list, the terms taken in some order and grouping (Eigen does not
promise one) -/
inductive SumsTo (f : Fmt) : List FP → FP → Prop
  | one (a : FP) : SumsTo f [a] a
  | add {l r : List FP} {a b : FP} : SumsTo f l a → SumsTo f r b → SumsTo f (l ++ r) (FP.add f a b)
  | perm {l r : List FP} {a : FP} : l.Perm r → SumsTo f l a → SumsTo f r a

/-- `x` is an entry of `Wm.transpose() * sigma_points`, unscented_transform.hpp:164; `col` is the
column of the matrix of points -/
def IsMeanF (wm col : List FP) (x : FP) : Prop := SumsTo binary32 (List.zipWith (FP.mul binary32) wm col) x

/-- `p` is an entry of `y.transpose() * (Wc.asDiagonal() * y)`, unscented_transform.hpp:165-166;
`colj`, `colk` are columns of the matrix of points, `xj`, `xk` the entries of the mean -/
def IsCovF (wc colj colk : List FP) (xj xk p : FP) : Prop :=
  SumsTo binary32 (List.zipWith (FP.mul binary32) (colj.map fun a => FP.sub binary32 a xj)
    (List.zipWith (FP.mul binary32) wc (colk.map fun a => FP.sub binary32 a xk))) p

end Mot
