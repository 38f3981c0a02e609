import Verif.Model.Motion
import Mathlib.Algebra.Order.Floor.Ring
import Mathlib.Algebra.Order.Archimedean.Real.Basic
/-!
# Rounding helpers (utils.hpp, ctrv_model.hpp, ctra_model.hpp)

In exact real arithmetic; the C++ code multiplies, rounds and divides in
`float`/`double`.
-/

namespace Mot

/-- `std::round` / `units::math::round`: nearest integer, halves away from zero -/
noncomputable def stdRound (x : ℝ) : ℝ :=
  if 0 ≤ x then (⌊x + 1 / 2⌋ : ℝ) else (⌈x - 1 / 2⌉ : ℝ)

/-- `utils::round_to_decimal_place(float, size_t)`, utils.hpp:43-49 -/
noncomputable def roundDec (x : ℝ) (d : ℕ) : ℝ :=
  let multiplier : ℝ := 10 ^ d
  stdRound (x * multiplier) / multiplier

/-- `utils::round_to_decimal_place(MatrixXf, size_t)`, utils.hpp:59-69, and the
covariance overload ctrv_model.hpp:434-445 -/
noncomputable def roundMatrix {m n : Type} (A : Matrix m n ℝ) (d : ℕ) : Matrix m n ℝ :=
  fun i j => roundDec (A i j) d

/-- `utils::round_to_decimal_place(CtrvState, size_t)`, ctrv_model.hpp:412-424 -/
noncomputable def CtrvState.round (s : CtrvState) (d : ℕ) : CtrvState :=
  ⟨roundDec s.x d, roundDec s.y d, roundDec s.v d, Angle.ofRad (roundDec s.yaw.getAngle d),
    roundDec s.yawRate d⟩

/-- `utils::round_to_decimal_place(CtraState, size_t)`, ctra_model.hpp:378-391 -/
noncomputable def CtraState.round (s : CtraState) (d : ℕ) : CtraState :=
  ⟨roundDec s.x d, roundDec s.y d, roundDec s.v d, Angle.ofRad (roundDec s.yaw.getAngle d),
    roundDec s.yawRate d, roundDec s.a d⟩

/-- `utils::round_to_decimal_place(…ProcessNoise, size_t)`, ctrv_model.hpp:455-463,
ctra_model.hpp:400-408 -/
noncomputable def ProcessNoise.round (n : ProcessNoise) (d : ℕ) : ProcessNoise :=
  ⟨roundDec n.lin d, roundDec n.ang d⟩

end Mot
