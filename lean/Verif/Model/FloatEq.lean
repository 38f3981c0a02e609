import Verif.Model.FloatMotion
/-!
# Comparison of states, in floating-point arithmetic

`units::unit_t` values are compared by `unitsEqF`.  An `Angle` holds a `std::complex<double>`, whose
comparison is that of the two parts.
-/

namespace Mot

/-- `==` of `double`s -/
def FP.eq : FP → FP → Bool
  | .fin a, .fin b => decide (a = b)
  | .inf s, .inf t => s == t
  | _, _ => false

/-- `operator==` of angles, angle.hpp:64-67; the arguments are the parts of `value_` -/
def angleEqF (l r : FP × FP) : Bool := FP.eq l.1 r.1 && FP.eq l.2 r.2

section
variable {m : Libm} (value : m.Ang → FP × FP)

/-- `operator==`, ctrv_model.hpp:139-143; `value` reads the parts of an angle -/
def CtrvStateF.eqF (l r : CtrvStateF m) : Bool :=
  unitsEqF l.x r.x && unitsEqF l.y r.y && unitsEqF l.v r.v && angleEqF (value l.yaw) (value r.yaw) &&
    unitsEqF l.yawRate r.yawRate

/-- `operator==`, ctra_model.hpp:146-151 -/
def CtraStateF.eqF (l r : CtraStateF m) : Bool :=
  unitsEqF l.x r.x && unitsEqF l.y r.y && unitsEqF l.v r.v && angleEqF (value l.yaw) (value r.yaw) &&
    unitsEqF l.yawRate r.yawRate && unitsEqF l.a r.a

end

/-- `operator==` of process noises, ctrv_model.hpp:294-298, ctra_model.hpp:260-264 -/
def ProcessNoiseF.eqF (l r : ProcessNoiseF) : Bool :=
  unitsEqF l.lin r.lin && unitsEqF l.ang r.ang

/-- `operator==` of augmented states, augmented_state.hpp:77-83 -/
def augmentedEqF {S : Type} (eqS : S → S → Bool) (l r : S × ProcessNoiseF) : Bool :=
  eqS l.1 r.1 && l.2.eqF r.2

end Mot
