import Verif.Model.Clustering
import Verif.Model.FloatPredict
/-!
# Clustering in floating-point arithmetic (clustering.hpp)

Points and squared distances as they are computed, in `double`.  `Cluster` and
`cluster_detections` are those of `Clustering.lean` with these points.  Parameters: the
mathematical library (`Libm`) and `sq`, the function `std::pow(·, 2)`.
-/

namespace Mot

local infixl:65 " ⊞ " => FP.add binary64
local infixl:65 " ⊟ " => FP.sub binary64
local infixl:70 " ⊘ " => FP.div binary64

/-- `struct Point`, clustering.hpp:34-41 -/
structure PointF (m : Libm) where
  x : FP
  y : FP
  v : FP
  yaw : m.Ang
  yawRate : FP

variable {m : Libm}

/-- default member initialisers and `operator/`, clustering.hpp:36-40, 43-52; `Angle::operator/=`,
angle.hpp:114-118; the size is converted to `double` -/
instance : PointOps (PointF m) where
  zero := ⟨.fin 0, .fin 0, .fin 0, m.ofRad (.fin 0), .fin 0⟩
  divideBy p n :=
    let r := FP.ofRat binary64 n
    ⟨p.x ⊘ r, p.y ⊘ r, p.v ⊘ r, m.ofRad (m.getAngle p.yaw ⊘ r), p.yawRate ⊘ r⟩

/-- clustering.hpp:56-67, 84-95, 185-191 for CTRV detections -/
instance {C : Type} : ClusterableOf (PointF m) (DynObj (CtrvStateF m) C) where
  uuid d := d.uuid
  addTo p d := ⟨p.x ⊞ d.state.x, p.y ⊞ d.state.y, p.v ⊞ d.state.v, m.addAng p.yaw d.state.yaw,
    p.yawRate ⊞ d.state.yawRate⟩
  subFrom p d := ⟨p.x ⊟ d.state.x, p.y ⊟ d.state.y, p.v ⊟ d.state.v, m.subAng p.yaw d.state.yaw,
    p.yawRate ⊟ d.state.yawRate⟩
  makePoint d := ⟨d.state.x, d.state.y, d.state.v, d.state.yaw, d.state.yawRate⟩

/-- the same templates for CTRA detections; the acceleration is not used -/
instance {C : Type} : ClusterableOf (PointF m) (DynObj (CtraStateF m) C) where
  uuid d := d.uuid
  addTo p d := ⟨p.x ⊞ d.state.x, p.y ⊞ d.state.y, p.v ⊞ d.state.v, m.addAng p.yaw d.state.yaw,
    p.yawRate ⊞ d.state.yawRate⟩
  subFrom p d := ⟨p.x ⊟ d.state.x, p.y ⊟ d.state.y, p.v ⊟ d.state.v, m.subAng p.yaw d.state.yaw,
    p.yawRate ⊟ d.state.yawRate⟩
  makePoint d := ⟨d.state.x, d.state.y, d.state.v, d.state.yaw, d.state.yawRate⟩

/-- variants: the overloads visit the variant and call the overload of the alternative -/
instance {C C' : Type} : ClusterableOf (PointF m) (Obj2 (CtrvStateF m) C (CtraStateF m) C') where
  uuid
    | .inl d => ClusterableOf.uuid d
    | .inr d => ClusterableOf.uuid d
  addTo p
    | .inl d => ClusterableOf.addTo p d
    | .inr d => ClusterableOf.addTo p d
  subFrom p
    | .inl d => ClusterableOf.subFrom p d
    | .inr d => ClusterableOf.subFrom p d
  makePoint
    | .inl d => ClusterableOf.makePoint d
    | .inr d => ClusterableOf.makePoint d

/-- `detail::squared_euclidean_distance`, clustering.hpp:155-168, on the members of a state; `yaw`
is the heading read from it -/
def sqDistF (sq : FP → FP) (p : PointF m) (x y v yaw yawRate : FP) : FP :=
  .fin 0 ⊞ sq (p.x ⊟ x) ⊞ sq (p.y ⊟ y) ⊞ sq (p.v ⊟ v) ⊞ sq (m.getAngle p.yaw ⊟ yaw)
    ⊞ sq (p.yawRate ⊟ yawRate)

/-- `detail::squared_euclidean_distance` for the detection types, clustering.hpp:155-181 -/
class SqDistF (m : outParam Libm) (δ : Type) extends ClusterableOf (PointF m) δ where
  sqDist : (FP → FP) → PointF m → δ → FP

instance {C : Type} : SqDistF m (DynObj (CtrvStateF m) C) where
  sqDist sq p d := sqDistF sq p d.state.x d.state.y d.state.v (m.getAngle d.state.yaw) d.state.yawRate

instance {C : Type} : SqDistF m (DynObj (CtraStateF m) C) where
  sqDist sq p d := sqDistF sq p d.state.x d.state.y d.state.v (m.getAngle d.state.yaw) d.state.yawRate

instance {C C' : Type} : SqDistF m (Obj2 (CtrvStateF m) C (CtraStateF m) C') where
  sqDist sq p
    | .inl d => SqDistF.sqDist sq p d
    | .inr d => SqDistF.sqDist sq p d

/-- `cluster_detections(detections, distance_threshold)`, clustering.hpp:269-273 -/
def clusterDetectionsF {δ : Type} [SqDistF m δ] (sq : FP → FP) (ds : List δ) (threshold : FP) :
    List (ClusterOf (PointF m) δ) :=
  clusterDetections (fun p d => FP.gt threshold (SqDistF.sqDist sq p d)) ds

end Mot
