import Verif.Spec.FloatMotion
import Mathlib.Logic.Relation
/-!
# Comparison with a tolerance
-/

namespace Mot.Spec

/-- the sum, rounded to the nearest `double`, exceeds 2⁵² times the difference or overflows, or the
difference is smaller than the smallest normal `double` -/
def AlmostEqual (a b : ℚ) : Prop :=
  |a - b| < (2 : ℚ) ^ (-1022 : ℤ) ∨
  ∃ r, NearestEven 53 (-1074) |a + b| r ∧ (2 ^ 52 * |a - b| < r ∨ (2 : ℚ) ^ (1024 : ℤ) ≤ r)

/-- `z` is a number -/
def IsNumber (z : FP) : Prop := ∃ q, IsDouble q ∧ z = .fin q

/-- the components that are compared with a tolerance are numbers -/
structure CtrvNumbers {m : Libm} (s : CtrvStateF m) : Prop where
  x : IsNumber s.x
  y : IsNumber s.y
  v : IsNumber s.v
  yawRate : IsNumber s.yawRate

structure CtraNumbers {m : Libm} (s : CtraStateF m) : Prop where
  x : IsNumber s.x
  y : IsNumber s.y
  v : IsNumber s.v
  yawRate : IsNumber s.yawRate
  a : IsNumber s.a

/-- one can get from the one to the other by steps between things that compare equal -/
def Linked {S : Type} (p : S → Prop) (eq : S → S → Bool) (s t : S) : Prop :=
  Relation.ReflTransGen (fun a b => p a ∧ p b ∧ eq a b = true) s t

end Mot.Spec
