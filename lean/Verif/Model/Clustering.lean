import Verif.Model.Motion
import Verif.Model.StdMap
/-!
# Clustering (clustering.hpp)

Clusters and `cluster_detections` for any type of points; the points of the code in exact real
arithmetic here, in floating-point arithmetic in `FloatClustering.lean`.
-/

namespace Mot

/-- `struct Point`, clustering.hpp:34-41 -/
structure Point where
  x : ℝ
  y : ℝ
  v : ℝ
  yaw : Angle
  yawRate : ℝ

namespace Point

/-- default member initialisers, clustering.hpp:36-40 -/
noncomputable def zero : Point := ⟨0, 0, 0, Angle.ofRad 0, 0⟩

/-- `operator/`, clustering.hpp:43-52.  Real division; the only caller divides by the
size of a non-empty container. -/
noncomputable def divide (p : Point) (r : ℝ) : Point :=
  ⟨p.x / r, p.y / r, p.v / r, p.yaw.divide r, p.yawRate / r⟩

end Point

/-- What `Cluster` uses of `Point`. -/
class PointOps (P : Type) where
  /-- default member initialisers, clustering.hpp:36-40 -/
  zero : P
  /-- `operator/` with a size converted to `double`, clustering.hpp:43-52 -/
  divideBy : P → ℕ → P

noncomputable instance : PointOps Point where
  zero := Point.zero
  divideBy p n := p.divide n

/-- What `Cluster` and `cluster_detections` use of a detection type, for points `P`. -/
class ClusterableOf (P : outParam Type) (δ : Type) where
  /-- `get_uuid`, dynamic_object.hpp:89-109 -/
  uuid : δ → Uuid
  /-- `detail::element_wise_add`, clustering.hpp:56-80 -/
  addTo : P → δ → P
  /-- `detail::element_wise_subtract`, clustering.hpp:84-110 -/
  subFrom : P → δ → P
  /-- `detail::make_point`, clustering.hpp:185-210 -/
  makePoint : δ → P

/-- in exact real arithmetic -/
class Clusterable (δ : Type) extends ClusterableOf Point δ where
  /-- `detail::squared_euclidean_distance`, clustering.hpp:155-181 -/
  sqDist : Point → δ → ℝ

/-- plain CTRV detections: the templates taking a `Detection` -/
noncomputable instance {C : Type} : Clusterable (DynObj CtrvState C) where
  uuid d := d.uuid
  addTo p d := ⟨p.x + d.state.x, p.y + d.state.y, p.v + d.state.v, p.yaw.add d.state.yaw,
    p.yawRate + d.state.yawRate⟩
  subFrom p d := ⟨p.x - d.state.x, p.y - d.state.y, p.v - d.state.v, p.yaw.sub d.state.yaw,
    p.yawRate - d.state.yawRate⟩
  sqDist p d := (p.x - d.state.x) ^ 2 + (p.y - d.state.y) ^ 2 + (p.v - d.state.v) ^ 2
    + (p.yaw.getAngle - d.state.yaw.getAngle) ^ 2 + (p.yawRate - d.state.yawRate) ^ 2
  makePoint d := ⟨d.state.x, d.state.y, d.state.v, d.state.yaw, d.state.yawRate⟩

/-- plain CTRA detections: the same templates; the acceleration is not used -/
noncomputable instance {C : Type} : Clusterable (DynObj CtraState C) where
  uuid d := d.uuid
  addTo p d := ⟨p.x + d.state.x, p.y + d.state.y, p.v + d.state.v, p.yaw.add d.state.yaw,
    p.yawRate + d.state.yawRate⟩
  subFrom p d := ⟨p.x - d.state.x, p.y - d.state.y, p.v - d.state.v, p.yaw.sub d.state.yaw,
    p.yawRate - d.state.yawRate⟩
  sqDist p d := (p.x - d.state.x) ^ 2 + (p.y - d.state.y) ^ 2 + (p.v - d.state.v) ^ 2
    + (p.yaw.getAngle - d.state.yaw.getAngle) ^ 2 + (p.yawRate - d.state.yawRate) ^ 2
  makePoint d := ⟨d.state.x, d.state.y, d.state.v, d.state.yaw, d.state.yawRate⟩

/-- `std::variant<CtrvDetection, CtraDetection>`: the overloads taking a variant visit it
and call the overload of the alternative -/
noncomputable instance {C C' : Type} : Clusterable (Obj2 CtrvState C CtraState C') where
  uuid
    | .inl d => ClusterableOf.uuid d
    | .inr d => ClusterableOf.uuid d
  addTo p
    | .inl d => ClusterableOf.addTo p d
    | .inr d => ClusterableOf.addTo p d
  subFrom p
    | .inl d => ClusterableOf.subFrom p d
    | .inr d => ClusterableOf.subFrom p d
  sqDist p
    | .inl d => Clusterable.sqDist p d
    | .inr d => Clusterable.sqDist p d
  makePoint
    | .inl d => ClusterableOf.makePoint d
    | .inr d => ClusterableOf.makePoint d

/-- `m.emplace(k, v)`: no effect when the key exists -/
def UMap.emplace {K V : Type} [DecidableEq K] (m : UMap K V) (k : K) (v : V) : UMap K V :=
  if m.find? k = none then m.set k v else m

/-- `class Cluster`, clustering.hpp:116-151 -/
structure ClusterOf (P δ : Type) where
  stateSum : P
  detections : UMap Uuid δ

/-- in exact real arithmetic -/
abbrev Cluster (δ : Type) := ClusterOf Point δ

namespace ClusterOf
variable {P δ : Type} [PointOps P] [ClusterableOf P δ]

/-- default constructor (clustering.hpp:149-150) -/
def new : ClusterOf P δ := ⟨PointOps.zero, UMap.empty⟩

/-- `is_empty`, clustering.hpp:120 -/
def isEmpty (c : ClusterOf P δ) : Bool := c.detections.entries.length == 0

/-- `clear`, clustering.hpp:121: the sum is left alone -/
def clear (c : ClusterOf P δ) : ClusterOf P δ := ⟨c.stateSum, UMap.empty⟩

/-- `add_detection`, clustering.hpp:123-127 -/
def add (c : ClusterOf P δ) (d : δ) : ClusterOf P δ :=
  ⟨ClusterableOf.addTo c.stateSum d, c.detections.emplace (ClusterableOf.uuid d) d⟩

/-- `remove_detection`, clustering.hpp:129-133; `at` throws before anything changes -/
def remove (u : Uuid) : Act (ClusterOf P δ) Unit := fun c =>
  match c.detections.find? u with
  | none => (c, .throw .outOfRange)
  | some d => (⟨ClusterableOf.subFrom c.stateSum d, c.detections.erase u⟩, .ok ())

/-- `get_centroid`, clustering.hpp:140-147 -/
def centroid (c : ClusterOf P δ) : Outcome P :=
  if c.detections.entries.isEmpty then .throw .runtimeError
  else .ok (PointOps.divideBy c.stateSum c.detections.entries.length)

end ClusterOf

section
variable {P δ : Type} [ClusterableOf P δ]

/-- inner loop of `cluster_detections`, clustering.hpp:243-250: returns the cluster and
the detections left in the vector.  `within p d` is `metric(p, d) < distance_threshold`;
since it is arbitrary this covers metrics that return NaN. -/
def scan (within : P → δ → Bool) (origin : P) :
    ClusterOf P δ → List δ → ClusterOf P δ × List δ
  | c, [] => (c, [])
  | c, d :: l =>
    if within origin d then scan within origin (c.add d) l
    else
      let r := scan within origin c l
      (r.1, d :: r.2)

theorem scan_length (within : P → δ → Bool) (o : P) (c : ClusterOf P δ) (l : List δ) :
    (scan within o c l).2.length ≤ l.length := by
  induction l generalizing c with
  | nil => exact le_rfl
  | cons d l ih =>
    simp only [scan]
    split
    · exact (ih _).trans (Nat.le_succ _)
    · exact Nat.succ_le_succ (ih _)

/-- outer loop of `cluster_detections`, clustering.hpp:228-256: take the last detection
as origin, remove it, collect what is within the threshold of it -/
def clusterDetections [PointOps P] (within : P → δ → Bool) (ds : List δ) :
    List (ClusterOf P δ) :=
  match _h : ds.getLast? with
  | none => []
  | some o =>
    let r := scan within (ClusterableOf.makePoint o) (ClusterOf.new.add o) ds.dropLast
    r.1 :: clusterDetections within r.2
  termination_by ds.length
  decreasing_by
    have h1 := scan_length within (ClusterableOf.makePoint o) (ClusterOf.new.add o) ds.dropLast
    have h2 : ds ≠ [] := by rintro rfl; cases _h
    have h3 := List.length_pos_of_ne_nil h2
    rw [List.length_dropLast] at h1
    omega

open Classical in
/-- `cluster_detections(detections, distance_threshold)`, clustering.hpp:269-273 -/
noncomputable def clusterDetectionsDefault {δ : Type} [Clusterable δ] (ds : List δ) (threshold : ℝ) :
    List (Cluster δ) :=
  clusterDetections (fun p d => decide (Clusterable.sqDist p d < threshold)) ds

end

end Mot
