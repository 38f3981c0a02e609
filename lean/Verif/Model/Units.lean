import Mathlib.Data.Real.Basic
/-!
# Comparison of unit-typed quantities (units.h)

The `units` library (external to the repository, `#include <units.h>`) compares
floating-point quantities with "almost equal" semantics, as the comment at
src/ctrv_model.cpp:40 says:
`|l - r| < epsilon * |l + r| || |l - r| < DBL_MIN`.
Values are real numbers here; rounding of `double` is not modelled.
-/

namespace Mot

/-- `std::numeric_limits<double>::epsilon()` -/
noncomputable def dblEpsilon : ℝ := 1 / 2 ^ 52

/-- `std::numeric_limits<double>::min()`, the smallest positive normal number -/
noncomputable def dblMin : ℝ := 1 / 2 ^ 1022

/-- `operator==` of `units::unit_t` (used at src/ctrv_model.cpp:41, src/ctra_model.cpp:43,
ctrv_model.hpp:141-142, ctra_model.hpp:148-150) -/
def unitsEq (a b : ℝ) : Prop := |a - b| < dblEpsilon * |a + b| ∨ |a - b| < dblMin

end Mot
