import Verif.Model.Pipeline
import Verif.Spec.Pipeline
import Verif.Spec.TrackObs
import Verif.Spec.Matching
/-!
# Vocabulary for statements about periods of the pipeline
-/

namespace Mot.Spec

open Manager

variable {τ S C : Type} [TrackOps τ S C]

/-- a detection with UUID `u` starts a track -/
def Starts (a : AssociationMap) (ds : List τ) (u : Uuid) : Prop :=
  ∃ d ∈ ds, TrackOps.uuid d = u ∧ Unassociated a d

/-- What happens in a period: its time, its detections and their association. -/
structure PeriodLog (τ : Type) where
  time : ℝ
  detections : List τ
  associations : AssociationMap

/-- the track `u` is associated with a detection, or started by one -/
def PeriodLog.Seen (p : PeriodLog τ) (u : Uuid) : Prop :=
  u ∈ p.associations.keys ∨ Starts p.associations p.detections u

/-- A sequence of completed periods: `align time` predicts to the time of the period; every period
may use its own solver, metric and gate.  The detections of a period have different UUIDs, and the
number of pairs fits into `size_t`. -/
inductive Periods (visitor : τ → τ → Outcome τ) (make : τ → τ) (align : ℝ → τ → Outcome τ) :
    Manager τ → List (PeriodLog τ) → Manager τ → Prop
  | nil (m : Manager τ) : Periods visitor make align m [] m
  | snoc {m m' m'' : Manager τ} {l : List (PeriodLog τ)} (p : PeriodLog τ)
      (h : Periods visitor make align m l m')
      {solve : Solver} (hs : IsPermSolver solve) {metric : τ → τ → Option FP} {gate : FP → Bool}
      (hds : (p.detections.map TrackOps.uuid).Nodup)
      (hbig : m'.getAllTracks.length * p.detections.length < 2 ^ 64)
      (hp : period solve metric gate visitor make (align p.time) p.detections m' =
        (m'', .ok p.associations)) :
      Periods visitor make align m (l ++ [p]) m''

end Mot.Spec
