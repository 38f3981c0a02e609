import Verif.Model.DynamicObject
import Verif.Model.StdMap
/-!
# Scoring and gating (scoring.hpp, gating.hpp)
-/

namespace Mot

/-- `std::pair<Uuid, Uuid>`: ordered lexicographically -/
abbrev UuidPair := Uuid ×ₗ Uuid

/-- build a key -/
abbrev mkPair (t d : Uuid) : UuidPair := toLex (t, d)

/-- `ScoreMap`, scoring.hpp:90, with score type `α` (`float` in the code) -/
abbrev ScoreMapOf (α : Type) := SMap UuidPair α

/-- inner loop of `score_tracks_and_detections`, scoring.hpp:101-108 -/
def scoreRow {τ δ α S C S' C' : Type} [TrackOps τ S C] [TrackOps δ S' C']
    (metric : τ → δ → Option α) (t : τ) (scores : ScoreMapOf α) (d : δ) : ScoreMapOf α :=
  match metric t d with
  | some s => scores.set (mkPair (TrackOps.uuid t) (TrackOps.uuid d)) s
  | none => scores

/-- `score_tracks_and_detections`, scoring.hpp:92-112 -/
def scoreTracksAndDetections {τ δ α S C S' C' : Type} [TrackOps τ S C] [TrackOps δ S' C']
    (tracks : List τ) (detections : List δ) (metric : τ → δ → Option α) : ScoreMapOf α :=
  tracks.foldl (fun scores t => detections.foldl (scoreRow metric t) scores) SMap.empty

/-- `euclidean_distance_score_fn` / `mahalanobis_distance_score_fn` on variants,
scoring.hpp:39-83: both arguments are visited; a score exists only for the
combinations where the state types coincide (`if constexpr`).  `f₁`, `f₂` are the
distance functions of the two motion models. -/
def scoreVariant {S₁ C₁ S₂ C₂ α : Type} (f₁ : DynObj S₁ C₁ → DynObj S₁ C₁ → α)
    (f₂ : DynObj S₂ C₂ → DynObj S₂ C₂ → α) :
    Obj2 S₁ C₁ S₂ C₂ → Obj2 S₁ C₁ S₂ C₂ → Option α
  | .inl t, .inl d => some (f₁ t d)
  | .inr t, .inr d => some (f₂ t d)
  | .inl _, .inr _ => none
  | .inr _, .inl _ => none

/-- `euclidean_distance_score`, scoring.hpp:39-60, for the Euclidean distances `d₁`, `d₂` of
the two motion models -/
def euclideanScore {S₁ C₁ S₂ C₂ α : Type} (d₁ : S₁ → S₁ → α) (d₂ : S₂ → S₂ → α) :
    Obj2 S₁ C₁ S₂ C₂ → Obj2 S₁ C₁ S₂ C₂ → Option α :=
  scoreVariant (fun t d => d₁ t.state d.state) (fun t d => d₂ t.state d.state)

/-- `mahalanobis_distance_score`, scoring.hpp:62-83; the covariance is the track's -/
def mahalanobisScore {S₁ C₁ S₂ C₂ α : Type} (d₁ : S₁ → C₁ → S₁ → α) (d₂ : S₂ → C₂ → S₂ → α) :
    Obj2 S₁ C₁ S₂ C₂ → Obj2 S₁ C₁ S₂ C₂ → Option α :=
  scoreVariant (fun t d => d₁ t.state t.covariance d.state)
    (fun t d => d₂ t.state t.covariance d.state)

/-- first loop of `prune_track_and_detection_scores_if`, gating.hpp:36-40: the
predicate may carry state `σ` from call to call -/
def keysToPrune {α σ : Type} (pred : σ → α → Bool × σ) :
    σ → List (UuidPair × α) → List UuidPair
  | _, [] => []
  | s, (k, a) :: l =>
    let r := pred s a
    if r.1 then k :: keysToPrune pred r.2 l else keysToPrune pred r.2 l

/-- `std::map::erase(key)` -/
def SMap.erase {K V : Type} [LinearOrder K] (m : SMap K V) (k : K) : SMap K V :=
  m.filter (fun e => e.1 ≠ k)

/-- `prune_track_and_detection_scores_if`, gating.hpp:31-45, predicate with state -/
def pruneScoresIfS {α σ : Type} (scores : ScoreMapOf α) (s₀ : σ) (pred : σ → α → Bool × σ) :
    ScoreMapOf α :=
  (keysToPrune pred s₀ scores.entries).foldl SMap.erase scores

/-- `prune_track_and_detection_scores_if` for a pure predicate -/
def pruneScoresIf {α : Type} (scores : ScoreMapOf α) (pred : α → Bool) : ScoreMapOf α :=
  pruneScoresIfS scores () (fun _ a => (pred a, ()))

end Mot
