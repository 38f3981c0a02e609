import Verif.Spec.TrackObs
import Verif.Model.Pipeline
/-!
# What one track sees of a history

Nothing here mentions the manager's maps.
-/

namespace Mot.Spec

open Manager

section
variable {τ S C : Type} [TrackOps τ S C]

/-- a call as seen by the track with a given UUID -/
inductive Local (τ S C : Type)
  | add (t : τ)
  | update (seen : Bool)
  | setPromotion (p : BitVec 64)
  | setRemoval (r : BitVec 64)
  | set (ts : ℝ) (s : S) (c : C)
  | copy (src : τ)

/-- what a call means for the track with UUID `u`; calls about other tracks mean nothing -/
def localView (u : Uuid) : Op τ S C → Option (Local τ S C)
  | .add t => if TrackOps.uuid t = u then some (.add t) else none
  | .update a => some (.update (decide (u ∈ a.keys)))
  | .setPromotion p => some (.setPromotion p)
  | .setRemoval r => some (.setRemoval r)
  | .updateTrack v ts s c => if v = u then some (.set ts s c) else none
  | .updateTrackFrom v src => if v = u then some (.copy src) else none

/-- the part of a history that concerns the track with UUID `u`, with the outcomes -/
def localHistory (u : Uuid) (ops : List (Op τ S C)) (os : List (Outcome Unit)) :
    List (Local τ S C × Outcome Unit) :=
  (ops.zip os).filterMap fun x => (localView u x.1).map fun l => (l, x.2)

/-- the two managers show the same about the track with UUID `u` -/
structure AgreeOn (u : Uuid) (m m' : Manager τ) : Prop where
  track : ∀ t, m.HasTrack u t ↔ m'.HasTrack u t
  counter : m.counter u = m'.counter u
  confirmed : m.Confirmed u ↔ m'.Confirmed u
  tentative : m.Tentative u ↔ m'.Tentative u
  promo : m.promo = m'.promo
  removal : m.removal = m'.removal

/-- for each update of the history, whether the track with UUID `u` was associated -/
def seenFlags (u : Uuid) (ops : List (Op τ S C)) : List Bool :=
  ops.filterMap fun
    | .update a => some (decide (u ∈ a.keys))
    | _ => none

/-- the call changes no threshold and adds no track with UUID `u` -/
def Op.Keeps (u : Uuid) : Op τ S C → Prop
  | .add t => TrackOps.uuid t ≠ u
  | .setPromotion _ => False
  | .setRemoval _ => False
  | _ => True

/-- A run of completed tracking cycles, each followed by starting tracks for the detections
without association; for each cycle the detections and the association map.  Solver, metric
and gate may change from cycle to cycle. -/
inductive Frames (visitor : τ → τ → Outcome τ) (make : τ → τ) :
    Manager τ → List (List τ × AssociationMap) → Manager τ → Prop
  | nil {m : Manager τ} : Frames visitor make m [] m
  | cons {m m₁ m₂ m' : Manager τ} {solve : Solver} {metric : τ → τ → Option FP} {gate : FP → Bool}
      {ds : List τ} {a : AssociationMap} {l : List (List τ × AssociationMap)} :
      cycle solve metric gate visitor ds m = (m₁, .ok a) →
      addUnassociated make a ds m₁ = (m₂, .ok ()) →
      Frames visitor make m₂ l m' → Frames visitor make m ((ds, a) :: l) m'

end

/-- hits minus misses -/
def net (l : List Bool) : ℤ := (l.count true : ℤ) - l.count false

/-- count, and whether confirmed, after one update -/
def lifeStep (promo removal : ℕ) (x : Option (ℕ × Bool)) (seen : Bool) : Option (ℕ × Bool) :=
  x.bind fun (c, f) =>
    let c' := if seen then min (c + 1) promo else c - 1
    if c' ≤ removal then none else some (c', f || decide (promo ≤ c'))

/-- count, and whether confirmed, after a sequence of updates -/
def life (promo removal : ℕ) (x : Option (ℕ × Bool)) (l : List Bool) : Option (ℕ × Bool) :=
  l.foldl (lifeStep promo removal) x

end Mot.Spec
