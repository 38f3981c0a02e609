import Mathlib.Algebra.Order.Field.Rat
import Mathlib.Algebra.Ring.Int.Parity
import Mathlib.Algebra.Order.Ring.Abs
/-!
# Binary floating-point numbers (IEEE 754), independent of the model
-/

namespace Mot.Spec

/-- `m · 2^e` is written as floating-point numbers with `p` bits and smallest exponent `emin`
are: either the significand has all `p` bits or the exponent is the smallest one -/
def Canonical (p : ℕ) (emin m e : ℤ) : Prop :=
  |m| < 2 ^ p ∧ emin ≤ e ∧ (2 ^ (p - 1) ≤ |m| ∨ e = emin)

/-- `q` is a floating-point number nearest to `x`; if there is another one as near, the
significand of `q` is even -/
def NearestEven (p : ℕ) (emin : ℤ) (x q : ℚ) : Prop :=
  ∃ m e : ℤ, Canonical p emin m e ∧ q = m * (2 : ℚ) ^ e ∧
    ∀ m' e' : ℤ, Canonical p emin m' e' →
      |q - x| ≤ |m' * (2 : ℚ) ^ e' - x| ∧
      (|q - x| = |m' * (2 : ℚ) ^ e' - x| → m' * (2 : ℚ) ^ e' ≠ q → Even m)

end Mot.Spec
