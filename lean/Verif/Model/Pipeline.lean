import Verif.Model.Fusing
/-!
# One tracking cycle

The repository contains no program that runs the components; this is the composition of the
public functions that the documentation describes (README.md, docs/track_management,
docs/system_design): score, gate, associate, fuse, update the tracks, update the track lists,
and start a tentative track for each detection without association.
-/

namespace Mot

section
variable {τ S C : Type} [TrackOps τ S C]

/-- score, gate and associate -/
def associateStep (solve : Solver) (metric : τ → τ → Option FP) (gate : FP → Bool)
    (ts ds : List τ) : Outcome AssociationMap :=
  associateDetectionsToTracks (gnnAssociator solve)
    (pruneScoresIf (scoreTracksAndDetections ts ds metric) gate)

/-- `for (const auto & track : fused) manager.update_track(get_uuid(track), track);` -/
def storeFused (fused : List τ) : Act (Manager τ) Unit :=
  Act.forEach (fun f => Manager.updateTrackFrom (TrackOps.uuid f) f) fused

/-- one cycle with the tracks `ts` and the detections `ds`; returns the association map -/
def cycleOn (solve : Solver) (metric : τ → τ → Option FP) (gate : FP → Bool)
    (visitor : τ → τ → Outcome τ) (ts ds : List τ) : Act (Manager τ) AssociationMap := fun m =>
  match associateStep solve metric gate ts ds with
  | .throw e => (m, .throw e)
  | .ub w => (m, .ub w)
  | .ok a =>
    match fuseAssociations a ts ds visitor with
    | .throw e => (m, .throw e)
    | .ub w => (m, .ub w)
    | .ok fused =>
      Act.andThen (storeFused fused) (fun _ =>
      Act.andThen (Manager.updateTrackLists a) fun _ m => (m, .ok a)) m

/-- one cycle on the manager's own tracks -/
def cycle (solve : Solver) (metric : τ → τ → Option FP) (gate : FP → Bool)
    (visitor : τ → τ → Outcome τ) (ds : List τ) : Act (Manager τ) AssociationMap := fun m =>
  cycleOn solve metric gate visitor m.getAllTracks ds m

/-- start a tentative track for each detection without association -/
def addUnassociated (make : τ → τ) (a : AssociationMap) (ds : List τ) : Act (Manager τ) Unit :=
  Act.forEach (fun d => Manager.addTentativeTrack (make d))
    (ds.filter fun d => !(HasAssociation.new a).detection d)

/-- One period of the pipeline (docs/multiple_object_tracking_overview.md:22-65): propagate the
detections to the current time, predict the tracks to the current time, run a cycle on the predicted
tracks, and start a tentative track for each detection without association.  `align` predicts an
object to the current time; the manager keeps its own estimates of the tracks until they are
fused. -/
def period (solve : Solver) (metric : τ → τ → Option FP) (gate : FP → Bool)
    (visitor : τ → τ → Outcome τ) (make : τ → τ) (align : τ → Outcome τ) (ds : List τ) :
    Act (Manager τ) AssociationMap := fun m =>
  match Outcome.mapM' align ds with
  | .throw e => (m, .throw e)
  | .ub w => (m, .ub w)
  | .ok ds' =>
    match Outcome.mapM' align m.getAllTracks with
    | .throw e => (m, .throw e)
    | .ub w => (m, .ub w)
    | .ok ts' =>
      Act.andThen (cycleOn solve metric gate visitor ts' ds') (fun a =>
      Act.andThen (addUnassociated make a ds') fun _ m => (m, .ok a)) m

end

end Mot
