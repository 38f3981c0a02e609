import Verif.Model.FloatMotion
import Verif.Model.FloatUt
import Mathlib.LinearAlgebra.Matrix.Defs
import Mathlib.Data.Fin.VecNotation
/-!
# Prediction of objects in floating-point arithmetic (unscented_kalman_filter.hpp,
unscented_transform.hpp, temporal_alignment.hpp)

The whole prediction as it is computed.  States hold `double`s, vectors and matrices hold
`float`s; every operation is rounded.  Parameters: the mathematical library (`Libm`), the
result `L` of `covariance.llt().matrixL()`, and the order in which Eigen takes sums (the
prediction is a relation, see `SumsTo`).
-/

namespace Mot

/-- `operator-=` / `operator-`, angle.hpp:77-82, 90-94 -/
def Libm.subAng (m : Libm) (l r : m.Ang) : m.Ang :=
  m.ofRad (FP.sub binary64 (m.getAngle l) (m.getAngle r))

local infixl:65 " ⊞ " => FP.add binary64
local infixl:65 " ⊟ " => FP.sub binary64

/-- What the prediction uses of a state type. -/
class MotionModelF (S : Type) (n : outParam ℕ) where
  /-- `get_next_state` -/
  next : S → FP → S
  /-- `operator+` -/
  add : S → S → S
  /-- `operator-` -/
  sub : S → S → S
  /-- `from_eigen_vector`; `float`s are converted to `double`s -/
  ofVec : (Fin n → FP) → S
  /-- `to_eigen_vector`; `double`s are converted to `float`s -/
  toVec : S → Fin n → FP

variable {m : Libm}

/-- ctrv_model.hpp:59-107, 118-127, 154-173 and src/ctrv_model.cpp:32-61 -/
instance : MotionModelF (CtrvStateF m) 5 where
  next := CtrvStateF.next
  add s t := ⟨s.x ⊞ t.x, s.y ⊞ t.y, s.v ⊞ t.v, m.addAng s.yaw t.yaw, s.yawRate ⊞ t.yawRate⟩
  sub s t := ⟨s.x ⊟ t.x, s.y ⊟ t.y, s.v ⊟ t.v, m.subAng s.yaw t.yaw, s.yawRate ⊟ t.yawRate⟩
  ofVec w := ⟨(w 0).conv binary64, (w 1).conv binary64, (w 2).conv binary64,
    m.ofRad ((w 3).conv binary64), (w 4).conv binary64⟩
  toVec s := ![s.x.conv binary32, s.y.conv binary32, s.v.conv binary32,
    (m.getAngle s.yaw).conv binary32, s.yawRate.conv binary32]

/-- ctra_model.hpp:61-113, 124-134, 162-181 and src/ctra_model.cpp:32-70 -/
instance : MotionModelF (CtraStateF m) 6 where
  next := CtraStateF.next
  add s t := ⟨s.x ⊞ t.x, s.y ⊞ t.y, s.v ⊞ t.v, m.addAng s.yaw t.yaw, s.yawRate ⊞ t.yawRate,
    s.a ⊞ t.a⟩
  sub s t := ⟨s.x ⊟ t.x, s.y ⊟ t.y, s.v ⊟ t.v, m.subAng s.yaw t.yaw, s.yawRate ⊟ t.yawRate,
    s.a ⊟ t.a⟩
  ofVec w := ⟨(w 0).conv binary64, (w 1).conv binary64, (w 2).conv binary64,
    m.ofRad ((w 3).conv binary64), (w 4).conv binary64, (w 5).conv binary64⟩
  toVec s := ![s.x.conv binary32, s.y.conv binary32, s.v.conv binary32,
    (m.getAngle s.yaw).conv binary32, s.yawRate.conv binary32, s.a.conv binary32]

/-- what `euclidean_distance` reads of a state, ctrv_model.hpp:351-353 -/
def CtrvStateF.pose (s : CtrvStateF m) : FPose := ⟨s.x, s.y, m.getAngle s.yaw⟩

/-- what `euclidean_distance` reads of a state, ctra_model.hpp:317-319 -/
def CtraStateF.pose (s : CtraStateF m) : FPose := ⟨s.x, s.y, m.getAngle s.yaw⟩

section
variable {S : Type} {n : ℕ} [MotionModelF S n]

/-- `generate_sigma_points`, unscented_transform.hpp:78-101; `L` is `covariance_sqrt` -/
def sigmaPointsF (s : S) (L : Matrix (Fin n) (Fin n) FP) (lam : FP) : List S :=
  (List.finRange n).flatMap fun j =>
    let d : S := MotionModelF.ofVec fun i => FP.mul binary32 (spreadF n lam) (L i j)
    [MotionModelF.add s d, MotionModelF.sub s d]

/-- the `double` nearest to 3.14159265359 -/
def yawCutF : FP := FP.ofRat binary64 (314159265359 / 10 ^ 11)

/-- `if (m(row, 3) > 3.14159265359) m(row, 3) -= 2 * 3.14159265359;`,
unscented_kalman_filter.hpp:81-85: `double` arithmetic, then conversion to `float` -/
def rotateYawF (w : Fin n → FP) : Fin n → FP := fun i =>
  if i.1 = 3 ∧ FP.gt (w i) yawCutF = true then
    FP.conv binary32 (w i ⊟ FP.mul binary64 (.fin 2) yawCutF)
  else w i

/-- the rows of `m_sigma_points`, unscented_kalman_filter.hpp:69-85 -/
def predictedRowsF (s : S) (L : Matrix (Fin n) (Fin n) FP) (dt lam : FP) : List (Fin n → FP) :=
  ((MotionModelF.next s dt :: (sigmaPointsF s L lam).map fun p => MotionModelF.next p dt).map
    MotionModelF.toVec).map rotateYawF

/-- `s'` and `P'` are a result of `unscented_kalman_filter_predict`,
unscented_kalman_filter.hpp:60-98 -/
def IsPredictF (s : S) (L : Matrix (Fin n) (Fin n) FP) (dt α β κ : FP) (s' : S)
    (P' : Matrix (Fin n) (Fin n) FP) : Prop :=
  let lam := lambdaF n α κ
  let w := weightsF n α β lam
  let rows := predictedRowsF s L dt lam
  ∃ x : Fin n → FP, (∀ j, IsMeanF w.1 (rows.map (· j)) (x j)) ∧
    (∀ j k, IsCovF w.2 (rows.map (· j)) (rows.map (· k)) (x j) (x k) (P' j k)) ∧
    s' = MotionModelF.ofVec x

/-- `s'` and `P'` are a result of `UnscentedTransform::operator()`, temporal_alignment.hpp:54-62;
note the order of the last two arguments -/
def IsTransformF (α β κ : FP) (s : S) (L : Matrix (Fin n) (Fin n) FP) (dt : FP) (s' : S)
    (P' : Matrix (Fin n) (Fin n) FP) : Prop := IsPredictF s L dt α κ β s' P'

end

end Mot
