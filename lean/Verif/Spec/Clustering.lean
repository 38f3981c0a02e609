import Verif.Model.DynamicObject
import Verif.Model.Motion
/-!
# Specification of clusters

What a cluster of detections should contain and what its centroid should be, without
reference to the implementation.
-/

namespace Mot

/-- The five quantities every detection reports, as real numbers. -/
structure Reading where
  x : ℝ
  y : ℝ
  v : ℝ
  yaw : ℝ
  yawRate : ℝ

/-- Euclidean distance of two readings -/
noncomputable def Reading.dist (a b : Reading) : ℝ :=
  √((a.x - b.x) ^ 2 + (a.y - b.y) ^ 2 + (a.v - b.v) ^ 2 + (a.yaw - b.yaw) ^ 2
    + (a.yawRate - b.yawRate) ^ 2)

/-- Types of detections: identity. -/
class Identified (δ : Type) where
  id : δ → Uuid

/-- Types of detections: identity and reading. -/
class Readable (δ : Type) extends Identified δ where
  reading : δ → Reading

noncomputable instance {C : Type} : Readable (DynObj CtrvState C) where
  id d := d.uuid
  reading d := ⟨d.state.x, d.state.y, d.state.v, d.state.yaw.getAngle, d.state.yawRate⟩

noncomputable instance {C : Type} : Readable (DynObj CtraState C) where
  id d := d.uuid
  reading d := ⟨d.state.x, d.state.y, d.state.v, d.state.yaw.getAngle, d.state.yawRate⟩

noncomputable instance {C C' : Type} : Readable (Obj2 CtrvState C CtraState C') where
  id
    | .inl d => d.uuid
    | .inr d => d.uuid
  reading
    | .inl d => Readable.reading d
    | .inr d => Readable.reading d

/-- `m` is the mean of the numbers `l`. -/
def IsMean (m : ℝ) (l : List ℝ) : Prop := l ≠ [] ∧ m * l.length = l.sum

/-- Calls on a cluster. -/
inductive ClusterOp (δ : Type)
  | add (d : δ)
  | remove (u : Uuid)
  | clear
  | centroid

/-- The detections that should be in a cluster after a history of calls (most recent
call first). -/
def members {δ : Type} [Identified δ] : List (ClusterOp δ) → List δ
  | [] => []
  | .add d :: h => d :: members h
  | .remove u :: h => (members h).filter (fun d => Identified.id d ≠ u)
  | .clear :: _ => []
  | .centroid :: h => members h

/-- Histories in which every added detection has a UUID that is not in the cluster at
that time, and `clear` is called only on empty clusters. -/
def Proper {δ : Type} [Identified δ] : List (ClusterOp δ) → Prop
  | [] => True
  | .add d :: h => (∀ e ∈ members h, Identified.id e ≠ Identified.id d) ∧ Proper h
  | .remove _ :: h => Proper h
  | .clear :: h => members h = [] ∧ Proper h
  | .centroid :: h => Proper h

end Mot

namespace Mot
variable {δ : Type} [Identified δ]

/-- The detections a cluster really contains after a history (most recent call first): of
several detections with one UUID the first stays. -/
def kept : List (ClusterOp δ) → List δ
  | [] => []
  | .add d :: h => if (kept h).any (fun e => Identified.id e = Identified.id d) then kept h
      else d :: kept h
  | .remove u :: h => (kept h).filter (fun d => Identified.id d ≠ u)
  | .clear :: _ => []
  | .centroid :: h => kept h

/-- Detections that were given to the cluster and never removed again, but are not in it:
those present at a `clear`, and those added under a UUID that was present already. -/
def ghosts : List (ClusterOp δ) → List δ
  | [] => []
  | .add d :: h => if (kept h).any (fun e => Identified.id e = Identified.id d) then d :: ghosts h
      else ghosts h
  | .remove _ :: h => ghosts h
  | .clear :: h => kept h ++ ghosts h
  | .centroid :: h => ghosts h

end Mot
