import Mathlib.Analysis.SpecialFunctions.Complex.Arg
/-!
# Angles (angle.hpp)

An `Angle` stores a complex number; `get_angle` computes its phase in [0, 2π).
`std::complex<double>` is modelled by ℂ and `std::arg` by `Complex.arg`, i.e. in exact
real arithmetic.
-/

namespace Mot

/-- `class Angle`, angle.hpp:38-68 -/
structure Angle where
  /-- `value_`, angle.hpp:41 -/
  value : ℂ

namespace Angle

/-- constructor, angle.hpp:44-47 -/
noncomputable def ofRad (x : ℝ) : Angle := ⟨⟨Real.cos x, Real.sin x⟩⟩

/-- `set_angle`, angle.hpp:49-53: overwrites real and imaginary part -/
noncomputable def setAngle (_a : Angle) (x : ℝ) : Angle := ⟨⟨Real.cos x, Real.sin x⟩⟩

/-- `get_angle`, angle.hpp:55-62 -/
noncomputable def getAngle (a : Angle) : ℝ :=
  if Complex.arg a.value < 0 then Complex.arg a.value + 2 * Real.pi else Complex.arg a.value

/-- `operator==`, angle.hpp:64-67 -/
def eq (a b : Angle) : Prop := a.value = b.value

/-- `operator+=` / `operator+`, angle.hpp:70-75, 84-88 -/
noncomputable def add (a b : Angle) : Angle := a.setAngle (a.getAngle + b.getAngle)

/-- `operator-=` / `operator-`, angle.hpp:77-82, 90-94 -/
noncomputable def sub (a b : Angle) : Angle := a.setAngle (a.getAngle - b.getAngle)

/-- `operator*=` / `operator*` (both orders), angle.hpp:96-112 -/
noncomputable def scale (a : Angle) (r : ℝ) : Angle := a.setAngle (r * a.getAngle)

/-- `operator/=` / `operator/`, angle.hpp:114-124.  Real division; the theorems using it
assume `r ≠ 0`. -/
noncomputable def divide (a : Angle) (r : ℝ) : Angle := a.setAngle (a.getAngle / r)

end Angle

end Mot
