import Verif.Model.Pipeline
import Verif.Spec.TrackObs
import Verif.Spec.Matching
/-!
# Vocabulary for statements about keeping several objects apart

`label` says which object of the world a UUID stands for: a detection has the label of the object it
shows, a track has the label of the detection that started it (tracks keep that UUID).  `ι` is the
set of objects.  A single-object tracker (`Solo`, `SoloStep`, `SoloRun`) sees only the detections of
its object; it knows nothing of scores, gates, solvers or association maps.
-/

namespace Mot.Spec

open Manager

section
variable {τ S C ι : Type} [TrackOps τ S C]

/-- what is in `l` about the object `o`: nothing, or exactly one element -/
def Only (l : List τ) (label : Uuid → ι) (o : ι) : Option τ → Prop
  | none => ∀ x ∈ l, label (TrackOps.uuid x) ≠ o
  | some y => ∀ x, (x ∈ l ∧ label (TrackOps.uuid x) = o) ↔ x = y

/-- the pair has a score that is not gated out -/
def Survives (metric : τ → τ → Option FP) (gate : FP → Bool) (t d : τ) (s : FP) : Prop :=
  metric t d = some s ∧ gate s = false

/-- The gate leaves exactly the pairs that show the same object.  Their scores are at most 10^31,
and there are two of them or one with a positive score. -/
structure GatedApart (label : Uuid → ι) (metric : τ → τ → Option FP) (gate : FP → Bool)
    (ts ds : List τ) : Prop where
  own : ∀ t ∈ ts, ∀ d ∈ ds, (∃ s, Survives metric gate t d s) ↔
    label (TrackOps.uuid t) = label (TrackOps.uuid d)
  range : ∀ t ∈ ts, ∀ d ∈ ds, ∀ s, Survives metric gate t d s → ∃ q, s = .fin q ∧ 0 ≤ q ∧ q ≤ 10 ^ 31
  defined : ∃ t ∈ ts, ∃ d ∈ ds, ∃ q, Survives metric gate t d (.fin q) ∧
    (0 < q ∨ ∃ t' ∈ ts, ∃ d' ∈ ds, label (TrackOps.uuid t') = label (TrackOps.uuid d') ∧
      label (TrackOps.uuid t') ≠ label (TrackOps.uuid t))

/-- Nothing is gated out and all scores are at most `b`.  Every track has a detection or every
detection has a track, and a score between different objects exceeds every score within an object by
more than `22 b / 10^8`. -/
structure NearestApart (label : Uuid → ι) (metric : τ → τ → Option FP) (gate : FP → Bool)
    (ts ds : List τ) (b : ℚ) : Prop where
  bound : b ≤ fltMaxQ
  range : ∀ t ∈ ts, ∀ d ∈ ds, ∃ q, Survives metric gate t d (.fin q) ∧ 0 ≤ q ∧ q ≤ b
  positive : ∃ t ∈ ts, ∃ d ∈ ds, ∃ q, Survives metric gate t d (.fin q) ∧ 0 < q
  served : (∀ t ∈ ts, ∃ d ∈ ds, label (TrackOps.uuid t) = label (TrackOps.uuid d)) ∨
    (∀ d ∈ ds, ∃ t ∈ ts, label (TrackOps.uuid t) = label (TrackOps.uuid d))
  gap : ∀ t ∈ ts, ∀ d ∈ ds, ∀ t' ∈ ts, ∀ d' ∈ ds, ∀ q q',
    label (TrackOps.uuid t) = label (TrackOps.uuid d) →
    label (TrackOps.uuid t') ≠ label (TrackOps.uuid d') →
    Survives metric gate t d (.fin q) → Survives metric gate t' d' (.fin q') →
    q + 22 * b / 100000000 < q'

/-- the objects can be told apart by their scores -/
def Apart (label : Uuid → ι) (metric : τ → τ → Option FP) (gate : FP → Bool)
    (ts ds : List τ) : Prop :=
  GatedApart label metric gate ts ds ∨ ∃ b, NearestApart label metric gate ts ds b

/-! ### A tracker for one object -/

/-- the track of a single object, its count, and whether it is confirmed -/
structure Solo (τ : Type) where
  track : τ
  count : ℕ
  confirmed : Bool

/-- a track with a new estimate and a new count, unless the count is too small -/
def Solo.keep (promo removal : ℕ) (t : τ) (c : ℕ) (confirmed : Bool) : Option (Solo τ) :=
  if c ≤ removal then none else some ⟨t, c, confirmed || decide (promo ≤ c)⟩

/-- one period of a tracker for a single object, with the object's detection if there is one -/
inductive SoloStep (visitor : τ → τ → Outcome τ) (make : τ → τ) (align : τ → Outcome τ)
    (promo removal : ℕ) : Option (Solo τ) → Option τ → Option (Solo τ) → Prop
  | idle : SoloStep visitor make align promo removal none none none
  | start {d y : τ} (hy : align d = .ok y) :
      SoloStep visitor make align promo removal none (some d) (some ⟨make y, 1, false⟩)
  | hit {x : Solo τ} {d t y f : τ} (ht : align x.track = .ok t) (hy : align d = .ok y)
      (hf : visitor t y = .ok f) :
      SoloStep visitor make align promo removal (some x) (some d)
        (Solo.keep promo removal f (min (x.count + 1) promo) x.confirmed)
  | miss {x : Solo τ} :
      SoloStep visitor make align promo removal (some x) none
        (Solo.keep promo removal x.track (x.count - 1) x.confirmed)

/-- a tracker for the object `o` in a sequence of periods, each with its time and all detections -/
inductive SoloRun (visitor : τ → τ → Outcome τ) (make : τ → τ) (align : ℝ → τ → Outcome τ)
    (promo removal : ℕ) (label : Uuid → ι) (o : ι) :
    Option (Solo τ) → List (ℝ × List τ) → Option (Solo τ) → Prop
  | nil (x : Option (Solo τ)) : SoloRun visitor make align promo removal label o x [] x
  | snoc {x x' x'' : Option (Solo τ)} {l : List (ℝ × List τ)} {time : ℝ} {ds : List τ}
      {d : Option τ} (h : SoloRun visitor make align promo removal label o x l x')
      (hd : Only ds label o d) (hs : SoloStep visitor make (align time) promo removal x' d x'') :
      SoloRun visitor make align promo removal label o x (l ++ [(time, ds)]) x''

/-- what the manager shows about the object `o` -/
def Shows (m : Manager τ) (label : Uuid → ι) (o : ι) (x : Option (Solo τ)) : Prop :=
  Only m.getAllTracks label o (x.map (·.track)) ∧
    ∀ s ∈ x, m.counter (TrackOps.uuid s.track) = s.count ∧
      (m.Confirmed (TrackOps.uuid s.track) ↔ s.confirmed = true) ∧
      (m.Tentative (TrackOps.uuid s.track) ↔ s.confirmed = false)

/-- A sequence of periods in which the predicted objects can be told apart, no object has two
detections, and an object's detection can be fused into its track.  Every period may use its own
solver, metric and gate.  That the periods complete is not required. -/
inductive ApartRun (visitor : τ → τ → Outcome τ) (make : τ → τ) (align : ℝ → τ → Outcome τ)
    (label : Uuid → ι) : Manager τ → List (ℝ × List τ) → Manager τ → Prop
  | nil (m : Manager τ) : ApartRun visitor make align label m [] m
  | snoc {m m' : Manager τ} {l : List (ℝ × List τ)} (time : ℝ) (ds : List τ)
      (h : ApartRun visitor make align label m l m')
      {solve : Solver} (hs : IsOptimalSolver solve) {metric : τ → τ → Option FP} {gate : FP → Bool}
      (hds : (ds.map fun d => label (TrackOps.uuid d)).Nodup)
      (hbig : m'.getAllTracks.length * ds.length < 2 ^ 64)
      {ts' ds' : List τ} (ht : List.Forall₂ (fun x y => align time x = .ok y) m'.getAllTracks ts')
      (hd : List.Forall₂ (fun x y => align time x = .ok y) ds ds')
      (hap : Apart label metric gate ts' ds')
      (hf : ∀ t ∈ ts', ∀ d ∈ ds', label (TrackOps.uuid t) = label (TrackOps.uuid d) →
        (visitor t d).IsOk) :
      ApartRun visitor make align label m (l ++ [(time, ds)])
        (period solve metric gate visitor make (align time) ds m').1

end

end Mot.Spec
