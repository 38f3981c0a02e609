import Verif.Model.Float
/-!
# Rounding helpers in floating-point arithmetic (utils.hpp, ctrv_model.hpp, ctra_model.hpp)

`round_to_decimal_place` as it is computed.  `std::pow(10.0f, decimal_place)` and
`std::pow(10, decimal_place)` are calls with an integral argument and return `double`, so the
product, `round` and the quotient are `double` operations in all overloads.

Assumption: `std::pow` is correctly rounded for powers of ten (glibc guarantees less than one unit
in the last place; exact results, up to 10^22, and overflow do not depend on it).  Not modelled: the
sign of zero.
-/

namespace Mot

/-- `round`: nearest integer, halves away from zero -/
def roundAway (q : ℚ) : ℤ := if 0 ≤ q then ⌊q + 1 / 2⌋ else ⌈q - 1 / 2⌉

/-- `round(double)` / `units::math::round`; the result is representable -/
def FP.roundInt : FP → FP
  | nan => nan
  | inf s => inf s
  | fin q => fin (roundAway q)

/-- `std::pow(10, decimal_place)` -/
def multiplier (d : ℕ) : FP := FP.ofRat binary64 (10 ^ d)

/-- the expression `round(n * multiplier) / multiplier` in `double`: components of states,
ctrv_model.hpp:412-424, ctra_model.hpp:378-391, and process noise, ctrv_model.hpp:455-463,
ctra_model.hpp:400-408 -/
def roundDec64 (n : FP) (d : ℕ) : FP :=
  FP.div binary64 (FP.roundInt (FP.mul binary64 n (multiplier d))) (multiplier d)

/-- `round_to_decimal_place(float, size_t)`, utils.hpp:43-49; elements of matrices, utils.hpp:59-69
and ctrv_model.hpp:434-445: the result is stored in a `float` -/
def roundDec32 (n : FP) (d : ℕ) : FP := FP.conv binary32 (roundDec64 n d)

end Mot
