import Mathlib.Analysis.SpecialFunctions.Trigonometric.Basic
/-!
# Arithmetic modulo 2π
-/

namespace Mot

/-- `x` and `y` denote the same direction -/
def SameDir (x y : ℝ) : Prop := ∃ k : ℤ, x = y + k * (2 * Real.pi)

end Mot

namespace Mot

/-- `d` is the distance of the directions `x` and `y` along the circle -/
def IsCircDist (d x y : ℝ) : Prop :=
  (∃ k : ℤ, d = |x - y + k * (2 * Real.pi)|) ∧ ∀ k : ℤ, d ≤ |x - y + k * (2 * Real.pi)|

end Mot
