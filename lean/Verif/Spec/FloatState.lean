import Verif.Model.FloatState
import Verif.Spec.FloatClustering
import Verif.Spec.FloatRound
import Verif.Spec.FloatMotion
/-!
# What sums, differences and conversions of `double`s should be
-/

namespace Mot.Spec

variable {m : Libm}

/-- the numbers of a state other than the heading: x, y, speed, yaw rate -/
def ctrvNumber (s : CtrvStateF m) : Fin 4 → FP := ![s.x, s.y, s.v, s.yawRate]

/-- x, y, speed, yaw rate, acceleration -/
def ctraNumber (s : CtraStateF m) : Fin 5 → FP := ![s.x, s.y, s.v, s.yawRate, s.a]

/-- the noise of the two accelerations -/
def noiseNumber (n : ProcessNoiseF) : Fin 2 → FP := ![n.lin, n.ang]

/-- `c` is the value `x` up to one rounding: an infinity exactly if `x` is too large for a `double`,
otherwise a number that differs from `x` by at most 2⁻⁵³ of it, and is `x` if that is a `double` -/
def RoundedTo (c : FP) (x : ℚ) : Prop :=
  (c = .inf (decide (x < 0)) ∧ (2 ^ 54 - 1) * (2 : ℚ) ^ (970 : ℤ) ≤ |x|) ∨
  (∃ q, c = .fin q ∧ IsDouble q ∧ |q - x| ≤ |x| / 2 ^ 53 ∧ (IsDouble x → q = x)) ∧
    |x| < (2 ^ 54 - 1) * (2 : ℚ) ^ (970 : ℤ)

/-- as the sum of `a` and `b` is computed -/
def IsSum (a b c : FP) : Prop :=
  (∀ x y, a = .fin x → b = .fin y → IsDouble x → IsDouble y → RoundedTo c (x + y)) ∧
  (a = .nan ∨ b = .nan → c = .nan) ∧
  (∀ s, a = .inf s → b = .inf (!s) → c = .nan) ∧
  (∀ s, a = .inf s → b ≠ .nan → b ≠ .inf (!s) → c = .inf s) ∧
  (∀ s, b = .inf s → a ≠ .nan → a ≠ .inf (!s) → c = .inf s)

/-- as the difference of `a` and `b` is computed -/
def IsDifference (a b c : FP) : Prop :=
  (∀ x y, a = .fin x → b = .fin y → IsDouble x → IsDouble y → RoundedTo c (x - y)) ∧
  (a = .nan ∨ b = .nan → c = .nan) ∧
  (∀ s, a = .inf s → b = .inf s → c = .nan) ∧
  (∀ s, a = .inf s → b ≠ .nan → b ≠ .inf s → c = .inf s) ∧
  (∀ s, b = .inf s → a ≠ .nan → a ≠ .inf s → c = .inf (!s))

end Mot.Spec
