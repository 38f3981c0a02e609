import Verif.Model.FloatPose
/-!
# Reading an angle in floating-point arithmetic (angle.hpp)
-/

namespace Mot

/-- `boost::math::double_constants::pi` -/
def piD : ℚ := 884279719003555 / 281474976710656

/-- `get_angle`, angle.hpp:55-62; `phase` is the value of `std::arg(value_)`, a `double`.
`2.0 * pi` is exact. -/
def getAngleF (phase : FP) : FP :=
  if FP.gt (.fin 0) phase then FP.add binary64 phase (FP.mul binary64 (.fin 2) (.fin piD)) else phase

end Mot
