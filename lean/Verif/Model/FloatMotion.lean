import Verif.Model.FloatAngle
/-!
# Prediction of states in floating-point arithmetic (src/ctrv_model.cpp, src/ctra_model.cpp)

`get_next_state` as it is computed: every quantity is a `double`, every operation is rounded.
The `units` types only carry the units; all conversion factors that occur are 1.

The mathematical library enters as a parameter.  Not modelled: the sign of zero (it can only
change the sign of a zero in the results and `std::arg` on the negative real axis, where both
readings of the heading are π).  No contraction to fused multiply-add.
-/

namespace Mot

/-- what `get_next_state` uses of the C++ library: `std::sin`, `std::cos`, and `Angle` objects by
the way they are made and read: `ofRad a` is `Angle{a}` (angle.hpp:44-53, sine and cosine of `a`),
`phase` is `std::arg(value_)` (angle.hpp:57) -/
structure Libm where
  Ang : Type
  sin : FP → FP
  cos : FP → FP
  ofRad : FP → Ang
  phase : Ang → FP

/-- `get_angle`, angle.hpp:55-62 -/
def Libm.getAngle (m : Libm) (z : m.Ang) : FP := getAngleF (m.phase z)

/-- `operator+=` / `operator+`, angle.hpp:70-75, 84-88 -/
def Libm.addAng (m : Libm) (l r : m.Ang) : m.Ang :=
  m.ofRad (FP.add binary64 (m.getAngle l) (m.getAngle r))

/-- absolute value -/
def FP.abs : FP → FP
  | nan => nan
  | inf _ => inf false
  | fin q => fin |q|

/-- `operator==` of `units::unit_t`, see `Units.lean` -/
def unitsEqF (a b : FP) : Bool :=
  FP.gt (FP.mul binary64 (.fin (1 / 2 ^ 52)) (FP.abs (FP.add binary64 a b)))
    (FP.abs (FP.sub binary64 a b)) ||
  FP.gt (.fin ((2 : ℚ) ^ (-1022 : ℤ))) (FP.abs (FP.sub binary64 a b))

/-- `CtrvState`, ctrv_model.hpp:41-47 -/
structure CtrvStateF (m : Libm) where
  x : FP
  y : FP
  v : FP
  yaw : m.Ang
  yawRate : FP

/-- `CtraState`, ctra_model.hpp:41-48 -/
structure CtraStateF (m : Libm) where
  x : FP
  y : FP
  v : FP
  yaw : m.Ang
  yawRate : FP
  a : FP

/-- `CtrvProcessNoise` / `CtraProcessNoise` -/
structure ProcessNoiseF where
  lin : FP
  ang : FP

local infixl:65 " ⊞ " => FP.add binary64
local infixl:65 " ⊟ " => FP.sub binary64
local infixl:70 " ⊠ " => FP.mul binary64
local infixl:70 " ⊘ " => FP.div binary64

variable {m : Libm}

/-- `get_next_state(CtrvState, time)`, src/ctrv_model.cpp:32-61 -/
def CtrvStateF.next (s : CtrvStateF m) (dt : FP) : CtrvStateF m :=
  let a := m.getAngle s.yaw
  let deltaYaw := s.yawRate ⊠ dt
  let p : FP × FP :=
    if unitsEqF s.yawRate (.fin 0) then
      (s.x ⊞ s.v ⊠ m.cos a ⊠ dt, s.y ⊞ s.v ⊠ m.sin a ⊠ dt)
    else
      let q := s.v ⊘ s.yawRate
      (s.x ⊞ q ⊠ (m.sin (a ⊞ deltaYaw) ⊟ m.sin a) ⊠ .fin 1,
       s.y ⊟ q ⊠ (m.cos (a ⊞ deltaYaw) ⊟ m.cos a) ⊠ .fin 1)
  { s with x := p.1, y := p.2, yaw := m.addAng s.yaw (m.ofRad deltaYaw) }

/-- `get_next_state(CtrvState, time, noise)`, src/ctrv_model.cpp:63-81 -/
def CtrvStateF.nextNoisy (s : CtrvStateF m) (dt : FP) (n : ProcessNoiseF) : CtrvStateF m :=
  let t := s.next dt
  let a := m.getAngle s.yaw
  ⟨t.x ⊞ .fin (1 / 2) ⊠ n.lin ⊠ m.cos a ⊠ (dt ⊠ dt),
   t.y ⊞ .fin (1 / 2) ⊠ n.lin ⊠ m.sin a ⊠ (dt ⊠ dt),
   t.v ⊞ n.lin ⊠ dt,
   m.addAng t.yaw (m.ofRad (.fin (1 / 2) ⊠ n.ang ⊠ (dt ⊠ dt))),
   t.yawRate ⊞ n.ang ⊠ dt⟩

/-- `get_next_state(CtraState, time)`, src/ctra_model.cpp:32-70 -/
def CtraStateF.next (s : CtraStateF m) (dt : FP) : CtraStateF m :=
  let vNew := s.v ⊞ s.a ⊠ dt
  let yawNew := m.addAng s.yaw (m.ofRad (s.yawRate ⊠ dt))
  let a := m.getAngle s.yaw
  let b := m.getAngle yawNew
  let d : FP × FP :=
    if unitsEqF s.yawRate (.fin 0) then
      ((s.v ⊠ dt ⊞ (s.a ⊠ dt ⊠ dt) ⊘ .fin 2) ⊠ m.cos a,
       (s.v ⊠ dt ⊞ (s.a ⊠ dt ⊠ dt) ⊘ .fin 2) ⊠ m.sin a)
    else
      ((.fin 1 ⊘ (s.yawRate ⊠ s.yawRate)) ⊠
          (vNew ⊠ s.yawRate ⊠ m.sin b ⊞ s.a ⊠ m.cos b ⊠ .fin 1
            ⊟ s.v ⊠ s.yawRate ⊠ m.sin a ⊟ s.a ⊠ m.cos a ⊠ .fin 1),
       (.fin 1 ⊘ (s.yawRate ⊠ s.yawRate)) ⊠
          (vNew.neg ⊠ s.yawRate ⊠ m.cos b ⊞ s.a ⊠ m.sin b ⊠ .fin 1
            ⊞ s.v ⊠ s.yawRate ⊠ m.cos a ⊟ s.a ⊠ m.sin a ⊠ .fin 1))
  ⟨s.x ⊞ d.1, s.y ⊞ d.2, vNew, yawNew, s.yawRate, s.a⟩

/-- `get_next_state(CtraState, time, noise)`, src/ctra_model.cpp:72-90 -/
def CtraStateF.nextNoisy (s : CtraStateF m) (dt : FP) (n : ProcessNoiseF) : CtraStateF m :=
  let t := s.next dt
  let a := m.getAngle s.yaw
  ⟨t.x ⊞ .fin (1 / 2) ⊠ n.lin ⊠ m.cos a ⊠ (dt ⊠ dt),
   t.y ⊞ .fin (1 / 2) ⊠ n.lin ⊠ m.sin a ⊠ (dt ⊠ dt),
   t.v ⊞ n.lin ⊠ dt,
   m.addAng t.yaw (m.ofRad (.fin (1 / 2) ⊠ n.ang ⊠ (dt ⊠ dt))),
   t.yawRate ⊞ n.ang ⊠ dt,
   t.a ⊞ n.lin⟩

end Mot
