import Verif.Model.DynamicObject
import Verif.Model.StdMap
/-!
# Track management (track_management.hpp)

`Manager τ` is `FixedThresholdTrackManager<Track>`.  `std::size_t` counters and
thresholds are `BitVec 64`, so the arithmetic wraps exactly like in C++.
-/

namespace Mot

/-- `AssociationMap`, track_matching.hpp:43 -/
abbrev AssociationMap := SMap Uuid (List Uuid)

/-- track_management.hpp:44-48 -/
inductive TrackStatus
  | confirmed | tentative
  deriving DecidableEq, Repr

/-- track_management.hpp:205-209 -/
structure Manager (τ : Type) where
  /-- `promotion_threshold_` -/
  promo : BitVec 64
  /-- `removal_threshold_` -/
  removal : BitVec 64
  /-- `tracks_` -/
  tracks : UMap Uuid τ
  /-- `statuses_` -/
  statuses : UMap Uuid TrackStatus
  /-- `occurrences_` -/
  occ : UMap Uuid (BitVec 64)

namespace Manager
variable {τ S C : Type} [TrackOps τ S C]

/-- constructor, track_management.hpp:51-55 -/
def new (promo removal : BitVec 64) : Manager τ :=
  ⟨promo, removal, .empty, .empty, .empty⟩

/-- `std::min(a, b)`: returns `b` if `b < a`, otherwise `a`. -/
def stdMin (a b : BitVec 64) : BitVec 64 := if b < a then b else a

/-- `get_occurrences`, track_management.hpp:57-64; the result type is `int`, the
counter is truncated to 32 bits. -/
def getOccurrences (m : Manager τ) (u : Uuid) : Int :=
  match m.occ.find? u with
  | none => 0
  | some c => (c.truncate 32).toInt

/-- first loop of `update_track_lists`, track_management.hpp:68-74 -/
def countAssociations (a : AssociationMap) (m : Manager τ) : Manager τ :=
  { m with occ := m.occ.mapVals (fun u c =>
      if a.count u = 0 then c - 1 else stdMin (c + 1) m.promo) }

/-- body of the second loop of `update_track_lists`, track_management.hpp:76-92 -/
def sweepEntry (e : Uuid × BitVec 64) : Act (Manager τ) Unit := fun m =>
  if e.2 ≤ m.removal then
    ({ m with tracks := m.tracks.erase e.1, statuses := m.statuses.erase e.1,
              occ := m.occ.erase e.1 }, .ok ())
  else if e.2 ≥ m.promo then
    match m.statuses.find? e.1 with
    | some _ => ({ m with statuses := m.statuses.replace e.1 .confirmed }, .ok ())
    | none => (m, .throw .outOfRange)
  else (m, .ok ())

/-- `update_track_lists`, track_management.hpp:66-93.  The second loop erases while
iterating; `erase` keeps the order of the other elements and does not change their
values, so iterating over the entries present at the start is the same. -/
def updateTrackLists (a : AssociationMap) : Act (Manager τ) Unit := fun m =>
  let m' := m.countAssociations a
  Act.forEach sweepEntry m'.occ.entries m'

/-- `add_tentative_track`, track_management.hpp:95-106 -/
def addTentativeTrack (t : τ) : Act (Manager τ) Unit := fun m =>
  let u := TrackOps.uuid t
  if m.tracks.count u ≠ 0 then (m, .throw .logicError)
  else ({ m with tracks := m.tracks.set u t, statuses := m.statuses.set u .tentative,
                 occ := m.occ.set u 1 }, .ok ())

/-- the loop of `get_tentative_tracks` / `get_confirmed_tracks` over `tracks_`,
track_management.hpp:112-116, 125-129; `statuses_.at` may throw. -/
def collect (st : UMap Uuid TrackStatus) (s : TrackStatus) :
    List (Uuid × τ) → Outcome (List τ)
  | [] => .ok []
  | (u, t) :: l => match st.find? u with
    | none => .throw .outOfRange
    | some s' => (collect st s l).bind fun r => .ok (if s' = s then t :: r else r)

/-- `get_tentative_tracks`, track_management.hpp:108-119 -/
def getTentativeTracks (m : Manager τ) : Outcome (List τ) :=
  collect m.statuses .tentative m.tracks.entries

/-- `get_confirmed_tracks`, track_management.hpp:121-132 -/
def getConfirmedTracks (m : Manager τ) : Outcome (List τ) :=
  collect m.statuses .confirmed m.tracks.entries

/-- `get_all_tracks`, track_management.hpp:134-143 -/
def getAllTracks (m : Manager τ) : List τ := m.tracks.entries.map (·.2)

/-- `m[k]` used as a value: inserts the default when the key is missing. -/
def indexOrInsert {V : Type} (m : UMap Uuid V) (k : Uuid) (dflt : V) : UMap Uuid V × V :=
  match m.find? k with
  | some v => (m, v)
  | none => (m.set k dflt, dflt)

/-- body of the loop of `set_promotion_threshold_and_update`,
track_management.hpp:150-154 -/
def reclassify (m : Manager τ) (e : Uuid × τ) : Manager τ :=
  let r := indexOrInsert m.occ e.1 0
  if r.2 ≥ m.promo then
    { m with occ := r.1, statuses := m.statuses.set e.1 .confirmed }
  else
    let r' := indexOrInsert r.1 e.1 0
    if r'.2 < m.promo then
      { m with occ := r'.1, statuses := m.statuses.set e.1 .tentative }
    else { m with occ := r'.1 }

/-- `set_promotion_threshold_and_update`, track_management.hpp:145-156 -/
def setPromotion (p : BitVec 64) (m : Manager τ) : Manager τ :=
  let m' := { m with promo := p }
  m'.tracks.entries.foldl reclassify m'

/-- body of the loop of `set_removal_threshold_and_update`,
track_management.hpp:167-177 -/
def pruneEntry (m : Manager τ) (e : Uuid × BitVec 64) : Manager τ :=
  if e.2 ≤ m.removal then
    { m with tracks := m.tracks.erase e.1, statuses := m.statuses.erase e.1,
             occ := m.occ.erase e.1 }
  else m

/-- `set_removal_threshold_and_update`, track_management.hpp:163-178 -/
def setRemoval (r : BitVec 64) (m : Manager τ) : Manager τ :=
  let m' := { m with removal := r }
  m'.occ.entries.foldl pruneEntry m'

/-- Apply an operation to the object stored under `u` (a reference obtained with
`tracks_.at`); the stored object keeps whatever the operation did before failing. -/
def withTrack (u : Uuid) (f : τ → τ × Outcome Unit) : Act (Manager τ) Unit := fun m =>
  match m.tracks.find? u with
  | none => (m, .throw .outOfRange)
  | some t => ({ m with tracks := m.tracks.replace u (f t).1 }, (f t).2)

/-- `update_track(id, timestamp, state, covariance)`, track_management.hpp:185-195 -/
def updateTrack (u : Uuid) (ts : ℝ) (s : S) (c : C) : Act (Manager τ) Unit :=
  Act.andThen (withTrack u fun t => (TrackOps.setTimestamp t ts, .ok ())) fun _ =>
  Act.andThen (withTrack u fun t => TrackOps.setState t s) fun _ =>
  withTrack u fun t => TrackOps.setCovariance t c

/-- `update_track(id, track)`, track_management.hpp:197-202 -/
def updateTrackFrom (u : Uuid) (src : τ) : Act (Manager τ) Unit :=
  Act.andThen
    (withTrack u fun t => (TrackOps.setTimestamp t (TrackOps.timestamp src), .ok ())) fun _ =>
  Act.andThen (withTrack u fun t => TrackOps.copyState t src) fun _ =>
  withTrack u fun t => TrackOps.copyCovariance t src

end Manager

/-- The mutating calls of the public interface. -/
inductive Op (τ S C : Type)
  | add (t : τ)
  | update (a : AssociationMap)
  | setPromotion (p : BitVec 64)
  | setRemoval (r : BitVec 64)
  | updateTrack (u : Uuid) (ts : ℝ) (s : S) (c : C)
  | updateTrackFrom (u : Uuid) (t : τ)

/-- 1 for `update_track_lists`, 0 for the other calls -/
def Op.updates {τ S C : Type} : Op τ S C → ℕ
  | .update _ => 1
  | _ => 0

/-- number of `update_track_lists` calls in a history -/
def numUpdates {τ S C : Type} : List (Op τ S C) → ℕ
  | [] => 0
  | op :: ops => op.updates + numUpdates ops

namespace Manager
variable {τ S C : Type} [TrackOps τ S C]

/-- one call -/
def step : Op τ S C → Act (Manager τ) Unit
  | .add t => addTentativeTrack t
  | .update a => updateTrackLists a
  | .setPromotion p => fun m => (m.setPromotion p, .ok ())
  | .setRemoval r => fun m => (m.setRemoval r, .ok ())
  | .updateTrack u ts s c => updateTrack u ts s c
  | .updateTrackFrom u t => updateTrackFrom u t

/-- Two managers differing only in the iteration order of their hash maps. -/
structure Reordered (m m' : Manager τ) : Prop where
  promo : m'.promo = m.promo
  removal : m'.removal = m.removal
  tracks : m.tracks.entries.Perm m'.tracks.entries
  statuses : m.statuses.entries.Perm m'.statuses.entries
  occ : m.occ.entries.Perm m'.occ.entries

/-- A history of calls with its outcomes.  Before and after every call the hash maps
may be re-ordered arbitrarily (rehash, different hash function, …). -/
inductive Runs : Manager τ → List (Op τ S C) → List (Outcome Unit) → Manager τ → Prop
  | nil {m m' : Manager τ} : m.Reordered m' → Runs m [] [] m'
  | cons {m m₁ m₂ : Manager τ} {op : Op τ S C} {ops os} :
      m.Reordered m₁ → Runs (step op m₁).1 ops os m₂ →
      Runs m (op :: ops) ((step op m₁).2 :: os) m₂

/-- The deterministic execution (no re-ordering). -/
def run : List (Op τ S C) → Manager τ → Manager τ
  | [], m => m
  | op :: ops, m => run ops (step op m).1

/-- Outcomes of the deterministic execution. -/
def outcomes : List (Op τ S C) → Manager τ → List (Outcome Unit)
  | [], _ => []
  | op :: ops, m => (step op m).2 :: outcomes ops (step op m).1

end Manager

end Mot
