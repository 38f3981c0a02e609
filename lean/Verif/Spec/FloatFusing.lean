import Mathlib.Algebra.BigOperators.Fin
import Mathlib.Algebra.Order.Field.Rat
/-!
# Covariance intersection of independent coordinates

`a` and `b` are inverse variances, `x` and `y` are means.
-/

namespace Mot.Spec

variable {n : ℕ}

/-- the weight -/
def ciWeight (a b : Fin n → ℚ) : ℚ :=
  (∏ i, (a i + b i) - ∏ i, b i + ∏ i, a i) / (2 * ∏ i, (a i + b i))

/-- inverse variance after fusing with weight `w` -/
def ciPrecision (w : ℚ) (a b : Fin n → ℚ) (i : Fin n) : ℚ := w * a i + (1 - w) * b i

/-- mean after fusing with weight `w` -/
def ciMean (w : ℚ) (a b x y : Fin n → ℚ) (i : Fin n) : ℚ :=
  (w * a i * x i + (1 - w) * b i * y i) / ciPrecision w a b i

/-- 3.14159265359, as it is written in the code -/
def piDigits : ℚ := 314159265359 / 10 ^ 11

/-- a vector whose heading (component 3) is taken on the side of the cut where it is closer to 0 -/
def headingNear0 (x : Fin n → ℚ) (i : Fin n) : ℚ :=
  if i.1 = 3 ∧ piDigits < x i then x i - 2 * piDigits else x i

end Mot.Spec
