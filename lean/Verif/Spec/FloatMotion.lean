import Verif.Spec.Ieee
import Verif.Model.FloatMotion
import Mathlib.Analysis.SpecialFunctions.Trigonometric.Basic
/-!
# Representable `double`s; what is assumed of the mathematical library
-/

namespace Mot.Spec

/-- `x` is a finite `double` -/
def IsDouble (x : ℚ) : Prop :=
  ∃ m e : ℤ, Canonical 53 (-1074) m e ∧ x = m * (2 : ℚ) ^ e ∧ |x| < (2 : ℚ) ^ (1024 : ℤ)

/-- sine and cosine of arguments up to 2²¹ are computed with an error of at most 2⁻⁵² (twice the
error of correct rounding) -/
def AccurateTrig (m : Libm) : Prop :=
  ∀ q : ℚ, |q| ≤ 2 ^ 21 → ∃ s c : ℚ, m.sin (.fin q) = .fin s ∧ m.cos (.fin q) = .fin c ∧
    |(s : ℝ) - Real.sin q| ≤ 1 / 2 ^ 52 ∧ |(c : ℝ) - Real.cos q| ≤ 1 / 2 ^ 52

/-- `std::arg` of an `Angle` made from `q` with |q| ≤ 2²¹ is a number between -π and π (as
`double`s) with the sine and cosine of `q` up to 2⁻⁵⁰ -/
def AccuratePhase (m : Libm) : Prop :=
  ∀ q : ℚ, |q| ≤ 2 ^ 21 → ∃ p : ℚ, m.phase (m.ofRad (.fin q)) = .fin p ∧ -piD ≤ p ∧ p ≤ piD ∧
    |Real.sin p - Real.sin q| ≤ 1 / 2 ^ 50 ∧ |Real.cos p - Real.cos q| ≤ 1 / 2 ^ 50

end Mot.Spec
