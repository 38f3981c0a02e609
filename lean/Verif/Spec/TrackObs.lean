import Verif.Model.TrackManager
/-!
# Observables of a track manager

What a user can see through the public getters.
-/

namespace Mot.Manager
variable {τ S C : Type} [TrackOps τ S C]

/-- `t` is among the managed tracks and carries UUID `u`. -/
def HasTrack (m : Manager τ) (u : Uuid) (t : τ) : Prop :=
  t ∈ m.getAllTracks ∧ TrackOps.uuid t = u

/-- Some managed track carries UUID `u`. -/
def Managed (m : Manager τ) (u : Uuid) : Prop := ∃ t, m.HasTrack u t

/-- Some track returned by `get_confirmed_tracks` carries UUID `u`. -/
def Confirmed (m : Manager τ) (u : Uuid) : Prop :=
  ∃ l, m.getConfirmedTracks = .ok l ∧ ∃ t ∈ l, TrackOps.uuid t = u

/-- Some track returned by `get_tentative_tracks` carries UUID `u`. -/
def Tentative (m : Manager τ) (u : Uuid) : Prop :=
  ∃ l, m.getTentativeTracks = .ok l ∧ ∃ t ∈ l, TrackOps.uuid t = u

/-- The occurrence count as a natural number, before the conversion to `int` made by
`get_occurrences`. -/
def counter (m : Manager τ) (u : Uuid) : ℕ :=
  match m.occ.find? u with
  | none => 0
  | some c => c.toNat

/-- The manager is reached by some history with `n` updates (and any number of other
calls) from a newly constructed one; hash maps may be re-ordered on the way. -/
def ReachableIn (S C : Type) [TrackOps τ S C] (n : ℕ) (m : Manager τ) : Prop :=
  ∃ (p r : BitVec 64) (ops : List (Op τ S C)) (os : List (Outcome Unit)),
    Runs (Manager.new p r) ops os m ∧ numUpdates ops = n

/-- All getters agree (lists up to order). -/
structure SameView (m m' : Manager τ) : Prop where
  all : m.getAllTracks.Perm m'.getAllTracks
  confirmed : ∃ l l', m.getConfirmedTracks = .ok l ∧ m'.getConfirmedTracks = .ok l' ∧ l.Perm l'
  tentative : ∃ l l', m.getTentativeTracks = .ok l ∧ m'.getTentativeTracks = .ok l' ∧ l.Perm l'
  occurrences : ∀ u, m.getOccurrences u = m'.getOccurrences u
  counters : ∀ u, m.counter u = m'.counter u
  promo : m.promo = m'.promo
  removal : m.removal = m'.removal

end Mot.Manager
