import Verif.Spec.Ieee
import Mathlib.Analysis.Real.Sqrt
/-!
# Correct rounding of real numbers
-/

namespace Mot.Spec

/-- `q` is a floating-point number nearest to the real number `x`; if there is another one as
near, the significand of `q` is even -/
def NearestEvenReal (p : ℕ) (emin : ℤ) (x : ℝ) (q : ℚ) : Prop :=
  ∃ m e : ℤ, Canonical p emin m e ∧ q = m * (2 : ℚ) ^ e ∧
    ∀ m' e' : ℤ, Canonical p emin m' e' →
      |(q : ℝ) - x| ≤ |m' * (2 : ℝ) ^ e' - x| ∧
      (|(q : ℝ) - x| = |m' * (2 : ℝ) ^ e' - x| → (m' * (2 : ℚ) ^ e' : ℚ) ≠ q → Even m)

end Mot.Spec
