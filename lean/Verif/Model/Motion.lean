import Verif.Model.Angle
import Verif.Model.Units
import Verif.Model.DynamicObject
import Mathlib.LinearAlgebra.Matrix.NonsingularInverse
import Mathlib.LinearAlgebra.Matrix.Notation
/-!
# CTRV and CTRA motion models (ctrv_model.hpp, ctra_model.hpp, src/ctrv_model.cpp, src/ctra_model.cpp)

Quantities are real numbers in SI units; the casts to `float` in `to_eigen_vector` and
the distance functions are the identity here.  Everything is in exact real arithmetic.
-/

namespace Mot

open Real

/-- `CtrvState`, ctrv_model.hpp:41-47 -/
structure CtrvState where
  x : ℝ
  y : ℝ
  v : ℝ
  yaw : Angle
  yawRate : ℝ

/-- `CtraState`, ctra_model.hpp:41-48 -/
structure CtraState where
  x : ℝ
  y : ℝ
  v : ℝ
  yaw : Angle
  yawRate : ℝ
  a : ℝ

/-- `CtrvProcessNoise` / `CtraProcessNoise`, ctrv_model.hpp:225-248, ctra_model.hpp:191-214
(the two structures have the same members) -/
structure ProcessNoise where
  lin : ℝ
  ang : ℝ

/-- `CtrvStateCovariance`, ctrv_model.hpp:220 -/
abbrev CtrvCov := Matrix (Fin 5) (Fin 5) ℝ
/-- `CtraStateCovariance`, ctra_model.hpp:186 -/
abbrev CtraCov := Matrix (Fin 6) (Fin 6) ℝ

namespace CtrvState

/-- `from_eigen_vector`, ctrv_model.hpp:59-68 -/
noncomputable def ofVec (w : Fin 5 → ℝ) : CtrvState :=
  ⟨w 0, w 1, w 2, Angle.ofRad (w 3), w 4⟩

/-- `to_eigen_vector`, ctrv_model.hpp:76-86 -/
noncomputable def toVec (s : CtrvState) : Fin 5 → ℝ :=
  ![s.x, s.y, s.v, s.yaw.getAngle, s.yawRate]

/-- `operator+=` / `operator+`, ctrv_model.hpp:98-107, 154-158 -/
noncomputable def add (s t : CtrvState) : CtrvState :=
  ⟨s.x + t.x, s.y + t.y, s.v + t.v, s.yaw.add t.yaw, s.yawRate + t.yawRate⟩

/-- `operator-=` / `operator-`, ctrv_model.hpp:118-127, 169-173 -/
noncomputable def sub (s t : CtrvState) : CtrvState :=
  ⟨s.x - t.x, s.y - t.y, s.v - t.v, s.yaw.sub t.yaw, s.yawRate - t.yawRate⟩

/-- `operator==`, ctrv_model.hpp:139-143 -/
def eq (s t : CtrvState) : Prop :=
  unitsEq s.x t.x ∧ unitsEq s.y t.y ∧ unitsEq s.v t.v ∧ s.yaw.eq t.yaw ∧
    unitsEq s.yawRate t.yawRate

/-- `operator*=` / `operator*`, ctrv_model.hpp:184-215 -/
noncomputable def smul (s : CtrvState) (r : ℝ) : CtrvState :=
  ⟨s.x * r, s.y * r, s.v * r, s.yaw.scale r, s.yawRate * r⟩

open Classical in
/-- `get_next_state(CtrvState, time)`, src/ctrv_model.cpp:32-61 -/
noncomputable def next (s : CtrvState) (dt : ℝ) : CtrvState :=
  let deltaYaw := s.yawRate * dt
  let p : ℝ × ℝ :=
    if unitsEq s.yawRate 0 then
      (s.x + s.v * cos s.yaw.getAngle * dt, s.y + s.v * sin s.yaw.getAngle * dt)
    else
      let q := s.v / s.yawRate
      (s.x + q * (sin (s.yaw.getAngle + deltaYaw) - sin s.yaw.getAngle) * 1,
       s.y - q * (cos (s.yaw.getAngle + deltaYaw) - cos s.yaw.getAngle) * 1)
  { s with x := p.1, y := p.2, yaw := s.yaw.add (Angle.ofRad deltaYaw) }

/-- `get_next_state(CtrvState, time, noise)`, src/ctrv_model.cpp:63-81 -/
noncomputable def nextNoisy (s : CtrvState) (dt : ℝ) (n : ProcessNoise) : CtrvState :=
  let t := s.next dt
  ⟨t.x + 1 / 2 * n.lin * cos s.yaw.getAngle * dt ^ 2,
   t.y + 1 / 2 * n.lin * sin s.yaw.getAngle * dt ^ 2,
   t.v + n.lin * dt,
   t.yaw.add (Angle.ofRad (1 / 2 * n.ang * dt ^ 2)),
   t.yawRate + n.ang * dt⟩

/-- `lhs_pose` of the distance functions, ctrv_model.hpp:351-356 -/
noncomputable def pose (s : CtrvState) : Fin 3 → ℝ := ![s.x, s.y, s.yaw.getAngle]

end CtrvState

namespace CtraState

/-- `from_eigen_vector`, ctra_model.hpp:61-71 -/
noncomputable def ofVec (w : Fin 6 → ℝ) : CtraState :=
  ⟨w 0, w 1, w 2, Angle.ofRad (w 3), w 4, w 5⟩

/-- `to_eigen_vector`, ctra_model.hpp:80-91 -/
noncomputable def toVec (s : CtraState) : Fin 6 → ℝ :=
  ![s.x, s.y, s.v, s.yaw.getAngle, s.yawRate, s.a]

/-- `operator+=` / `operator+`, ctra_model.hpp:103-113, 162-166 -/
noncomputable def add (s t : CtraState) : CtraState :=
  ⟨s.x + t.x, s.y + t.y, s.v + t.v, s.yaw.add t.yaw, s.yawRate + t.yawRate, s.a + t.a⟩

/-- `operator-=` / `operator-`, ctra_model.hpp:124-134, 177-181 -/
noncomputable def sub (s t : CtraState) : CtraState :=
  ⟨s.x - t.x, s.y - t.y, s.v - t.v, s.yaw.sub t.yaw, s.yawRate - t.yawRate, s.a - t.a⟩

/-- `operator==`, ctra_model.hpp:146-151 -/
def eq (s t : CtraState) : Prop :=
  unitsEq s.x t.x ∧ unitsEq s.y t.y ∧ unitsEq s.v t.v ∧ s.yaw.eq t.yaw ∧
    unitsEq s.yawRate t.yawRate ∧ unitsEq s.a t.a

open Classical in
/-- `get_next_state(CtraState, time)`, src/ctra_model.cpp:32-70 -/
noncomputable def next (s : CtraState) (dt : ℝ) : CtraState :=
  let vNew := s.v + s.a * dt
  let yawNew := s.yaw.add (Angle.ofRad (s.yawRate * dt))
  let d : ℝ × ℝ :=
    if unitsEq s.yawRate 0 then
      ((s.v * dt + (s.a * dt * dt) / 2) * cos s.yaw.getAngle,
       (s.v * dt + (s.a * dt * dt) / 2) * sin s.yaw.getAngle)
    else
      ((1 / (s.yawRate * s.yawRate)) *
          (vNew * s.yawRate * sin yawNew.getAngle + s.a * cos yawNew.getAngle * 1
            - s.v * s.yawRate * sin s.yaw.getAngle - s.a * cos s.yaw.getAngle * 1),
       (1 / (s.yawRate * s.yawRate)) *
          (-vNew * s.yawRate * cos yawNew.getAngle + s.a * sin yawNew.getAngle * 1
            + s.v * s.yawRate * cos s.yaw.getAngle - s.a * sin s.yaw.getAngle * 1))
  ⟨s.x + d.1, s.y + d.2, vNew, yawNew, s.yawRate, s.a⟩

/-- `get_next_state(CtraState, time, noise)`, src/ctra_model.cpp:72-90 -/
noncomputable def nextNoisy (s : CtraState) (dt : ℝ) (n : ProcessNoise) : CtraState :=
  let t := s.next dt
  ⟨t.x + 1 / 2 * n.lin * cos s.yaw.getAngle * dt ^ 2,
   t.y + 1 / 2 * n.lin * sin s.yaw.getAngle * dt ^ 2,
   t.v + n.lin * dt,
   t.yaw.add (Angle.ofRad (1 / 2 * n.ang * dt ^ 2)),
   t.yawRate + n.ang * dt,
   t.a + n.lin⟩

/-- `lhs_pose` of the distance functions, ctra_model.hpp:317-322 -/
noncomputable def pose (s : CtraState) : Fin 3 → ℝ := ![s.x, s.y, s.yaw.getAngle]

end CtraState

open Matrix in
/-- `sqrt(diff.transpose() * diff)`, ctrv_model.hpp:358-360, ctra_model.hpp:324-326 -/
noncomputable def poseDistance (p q : Fin 3 → ℝ) : ℝ :=
  let diff := p - q
  sqrt (diff ⬝ᵥ diff)

/-- `euclidean_distance`, ctrv_model.hpp:349-361 -/
noncomputable def CtrvState.euclid (s t : CtrvState) : ℝ := poseDistance s.pose t.pose

/-- `euclidean_distance`, ctra_model.hpp:315-327 -/
noncomputable def CtraState.euclid (s t : CtraState) : ℝ := poseDistance s.pose t.pose

/-- `pose_cov << …`, ctrv_model.hpp:374-376: rows/columns 0, 1 and 3 -/
def CtrvCov.pose (P : CtrvCov) : Matrix (Fin 3) (Fin 3) ℝ :=
  !![P 0 0, P 0 1, P 0 3; P 1 0, P 1 1, P 1 3; P 3 0, P 3 1, P 3 3]

/-- `pose_cov << …`, ctra_model.hpp:341-343 -/
def CtraCov.pose (P : CtraCov) : Matrix (Fin 3) (Fin 3) ℝ :=
  !![P 0 0, P 0 1, P 0 3; P 1 0, P 1 1, P 1 3; P 3 0, P 3 1, P 3 3]

open Matrix in
/-- `diff.transpose() * pose_cov.inverse() * diff` and its square root.  `none`: the
matrix is singular or the radicand is negative (the code would return NaN or infinity). -/
noncomputable def poseMahalanobis (C : Matrix (Fin 3) (Fin 3) ℝ) (p q : Fin 3 → ℝ) : Option ℝ :=
  let diff := p - q
  open Classical in
  if IsUnit C.det ∧ 0 ≤ (diff ᵥ* C⁻¹) ⬝ᵥ diff then some (sqrt ((diff ᵥ* C⁻¹) ⬝ᵥ diff)) else none

/-- `mahalanobis_distance`, ctrv_model.hpp:363-379 -/
noncomputable def CtrvState.mahalanobis (mean : CtrvState) (P : CtrvCov) (point : CtrvState) :
    Option ℝ := poseMahalanobis P.pose mean.pose point.pose

/-- `mahalanobis_distance`, ctra_model.hpp:329-346 -/
noncomputable def CtraState.mahalanobis (mean : CtraState) (P : CtraCov) (point : CtraState) :
    Option ℝ := poseMahalanobis P.pose mean.pose point.pose

end Mot
