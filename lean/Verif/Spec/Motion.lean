import Mathlib.Analysis.SpecialFunctions.Trigonometric.Deriv
/-!
# Equation of motion with constant turn rate and acceleration

docs/system_design/motion_models.rst: the heading turns at a constant rate, the speed
changes at a constant rate (0 for CTRV), the velocity points along the heading.
-/

namespace Mot

/-- `(X t, Y t)` is the position at time `t` of an object that starts at `(x, y)` with
speed `v`, heading `ψ`, turn rate `ω` and acceleration `a`. -/
structure TurnMotion (x y v ψ ω a : ℝ) (X Y : ℝ → ℝ) : Prop where
  startX : X 0 = x
  startY : Y 0 = y
  velX : ∀ t, HasDerivAt X ((v + a * t) * Real.cos (ψ + ω * t)) t
  velY : ∀ t, HasDerivAt Y ((v + a * t) * Real.sin (ψ + ω * t)) t

/-- yaw rates for which the code's test for "no turning" is right: zero, or not below
the smallest normal `double` -/
def Admissible (ω : ℝ) : Prop := ω = 0 ∨ 1 / 2 ^ 1022 ≤ |ω|

end Mot
