import Verif.Spec.Period
/-!
# Vocabulary for statements about the number of tracks
-/

namespace Mot.Spec

open Manager

variable {τ S C : Type} [TrackOps τ S C]

/-- the call neither updates the track lists nor changes a threshold -/
def PlainCall : Op τ S C → Prop
  | .add _ | .updateTrack .. | .updateTrackFrom .. => True
  | .update _ | .setPromotion _ | .setRemoval _ => False

/-- UUIDs of the objects given to `add_tentative_track` -/
def addedUuids : List (Op τ S C) → List Uuid
  | [] => []
  | .add t :: ops => TrackOps.uuid t :: addedUuids ops
  | _ :: ops => addedUuids ops

/-- One round: `update_track_lists(seen)`, followed by other calls. -/
structure Round (τ S C : Type) where
  seen : AssociationMap
  calls : List (Op τ S C)

namespace Round

/-- the calls of a round -/
def ops (r : Round τ S C) : List (Op τ S C) := .update r.seen :: r.calls

/-- the first call is the only update, no call changes a threshold, and at most `D` tracks are
associated or added -/
def AtMost (D : ℕ) (r : Round τ S C) : Prop :=
  (∀ op ∈ r.calls, PlainCall op) ∧ r.seen.keys.length + (addedUuids r.calls).length ≤ D

end Round

/-- A history of rounds and completed periods in any order, with at most `D` tracks associated or
added per round and at most `D` detections per period; with the number of rounds and periods. -/
inductive CrowdHistory (visitor : τ → τ → Outcome τ) (make : τ → τ) (align : ℝ → τ → Outcome τ) (D : ℕ)
    (m : Manager τ) : ℕ → Manager τ → Prop
  | start : CrowdHistory visitor make align D m 0 m
  | round {n : ℕ} {m' m'' : Manager τ} (h : CrowdHistory visitor make align D m n m')
      {r : Round τ S C} (hr : r.AtMost D) {os : List (Outcome Unit)} (hs : Runs m' r.ops os m'') :
      CrowdHistory visitor make align D m (n + 1) m''
  | period {n : ℕ} {m' m'' : Manager τ} (h : CrowdHistory visitor make align D m n m')
      {solve : Solver} (hs : IsPermSolver solve) {metric : τ → τ → Option FP} {gate : FP → Bool}
      {time : ℝ} {ds : List τ} (hds : (ds.map TrackOps.uuid).Nodup) (hD : ds.length ≤ D)
      (hbig : m'.getAllTracks.length * ds.length < 2 ^ 64) {a : AssociationMap}
      (hp : period solve metric gate visitor make (align time) ds m' = (m'', .ok a)) :
      CrowdHistory visitor make align D m (n + 1) m''

/-- number of managed tracks -/
def numTracks (m : Manager τ) : ℕ := m.getAllTracks.length

open Classical in
/-- number of managed tracks whose occurrence count is above the removal threshold -/
noncomputable def numAbove (m : Manager τ) : ℕ :=
  (m.getAllTracks.filter fun t => decide (m.removal.toNat < m.counter (TrackOps.uuid t))).length

end Mot.Spec
