import Verif.Model.Fusing
import Mathlib.LinearAlgebra.Matrix.PosDef
/-!
# Vocabulary for statements about the tracking cycle
-/

namespace Mot.Spec

/-- the covariance of the object is positive definite -/
def CovPosDef : MotObj → Prop
  | .inl o => o.covariance.PosDef
  | .inr o => o.covariance.PosDef

/-- number of CTRV objects -/
def ctrvCount (l : List MotObj) : ℕ := (l.filter fun o => o.isLeft).length

/-- number of CTRA objects -/
def ctraCount (l : List MotObj) : ℕ := (l.filter fun o => !o.isLeft).length

/-- too few CTRV detections and too few CTRA tracks, or the other way round; each kind
occurs -/
def Unbalanced (ts ds : List MotObj) : Prop :=
  1 ≤ ctrvCount ts ∧ 1 ≤ ctraCount ts ∧ 1 ≤ ctrvCount ds ∧ 1 ≤ ctraCount ds ∧
  ((ctrvCount ds < ctrvCount ts ∧ ctraCount ts < ctraCount ds) ∨
    (ctrvCount ts < ctrvCount ds ∧ ctraCount ds < ctraCount ts))

/-- a metric of the library: only objects with the same motion model have a score -/
def IsLibraryMetric (metric : MotObj → MotObj → Option FP) : Prop :=
  (∃ d₁ d₂, metric = euclideanScore d₁ d₂) ∨ (∃ d₁ d₂, metric = mahalanobisScore d₁ d₂)

/-- same UUID, semantic class and motion model -/
structure SameObject {S₁ C₁ S₂ C₂ : Type} (o o' : Obj2 S₁ C₁ S₂ C₂) : Prop where
  uuid : TrackOps.uuid o' = TrackOps.uuid o
  semanticClass : TrackOps.semanticClass o' = TrackOps.semanticClass o
  model : o'.isLeft = o.isLeft

/-- no track is associated with the detection -/
def Unassociated {τ S C : Type} [TrackOps τ S C] (a : AssociationMap) (d : τ) : Prop :=
  ∀ u l, a.find? u = some l → TrackOps.uuid d ∉ l

end Mot.Spec
