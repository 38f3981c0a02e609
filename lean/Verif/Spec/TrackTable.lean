import Verif.Model.TrackManager
/-!
# Specification of the track manager

One table entry per UUID: the track, a natural-number count and a confirmed flag.
Nothing here mentions the manager's hash maps.
-/

namespace Mot.Spec

/-- What is known about one managed track. -/
structure Entry (τ : Type) where
  track : τ
  count : ℕ
  confirmed : Bool

/-- Thresholds and the table. -/
structure Table (τ : Type) where
  promo : ℕ
  removal : ℕ
  entry : Uuid → Option (Entry τ)

namespace Table
variable {τ S C : Type} [TrackOps τ S C]

/-- the empty table -/
def new (promo removal : ℕ) : Table τ := ⟨promo, removal, fun _ => none⟩

/-- new count of a track after one update -/
def newCount (promo : ℕ) (associated : Bool) (c : ℕ) : ℕ :=
  if associated then min (c + 1) promo else c - 1

/-- effect of one update on one entry -/
def updateEntry (promo removal : ℕ) (associated : Bool) (e : Entry τ) : Option (Entry τ) :=
  let c := newCount promo associated e.count
  if c ≤ removal then none
  else some ⟨e.track, c, e.confirmed || decide (promo ≤ c)⟩

/-- effect of `update_track(id, ts, s, c)` on one object: time, then state, then
covariance, each only if everything before succeeded -/
def setEstimate (ts : ℝ) (s : S) (c : C) (t : τ) : τ × Outcome Unit :=
  let t₁ := TrackOps.setTimestamp t ts
  match TrackOps.setState t₁ s with
  | (t₂, .ok _) => TrackOps.setCovariance t₂ c
  | (t₂, .throw e) => (t₂, .throw e)
  | (t₂, .ub w) => (t₂, .ub w)

/-- effect of `update_track(id, track)` on one object -/
def copyEstimate (src : τ) (t : τ) : τ × Outcome Unit :=
  let t₁ := TrackOps.setTimestamp t (TrackOps.timestamp src)
  match TrackOps.copyState t₁ src with
  | (t₂, .ok _) => TrackOps.copyCovariance t₂ src
  | (t₂, .throw e) => (t₂, .throw e)
  | (t₂, .ub w) => (t₂, .ub w)

/-- modify the track of one entry -/
def modifyTrack (T : Table τ) (u : Uuid) (f : τ → τ × Outcome Unit) :
    Table τ × Outcome Unit :=
  match T.entry u with
  | none => (T, .throw .outOfRange)
  | some e =>
    ({ T with entry := fun v => if v = u then some { e with track := (f e.track).1 }
                                else T.entry v },
     (f e.track).2)

/-- one call -/
def step : Op τ S C → Table τ → Table τ × Outcome Unit
  | .add t, T =>
    match T.entry (TrackOps.uuid t) with
    | some _ => (T, .throw .logicError)
    | none =>
      ({ T with entry := fun v => if v = TrackOps.uuid t then some ⟨t, 1, false⟩
                                  else T.entry v }, .ok ())
  | .update a, T =>
    ({ T with entry := fun v =>
        (T.entry v).bind (updateEntry T.promo T.removal (decide (v ∈ a.keys))) }, .ok ())
  | .setPromotion p, T =>
    ({ T with promo := p.toNat, entry := fun v =>
        (T.entry v).map fun e => { e with confirmed := decide (p.toNat ≤ e.count) } }, .ok ())
  | .setRemoval r, T =>
    ({ T with removal := r.toNat, entry := fun v =>
        (T.entry v).bind fun e => if e.count ≤ r.toNat then none else some e }, .ok ())
  | .updateTrack u ts s c, T => T.modifyTrack u (setEstimate ts s c)
  | .updateTrackFrom u src, T => T.modifyTrack u (copyEstimate src)

/-- state after a history -/
def run : List (Op τ S C) → Table τ → Table τ
  | [], T => T
  | op :: ops, T => run ops (step op T).1

/-- outcomes of a history -/
def outcomes : List (Op τ S C) → Table τ → List (Outcome Unit)
  | [], _ => []
  | op :: ops, T => (step op T).2 :: outcomes ops (step op T).1

end Table

end Mot.Spec
