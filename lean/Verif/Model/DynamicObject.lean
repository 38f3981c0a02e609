import Verif.Model.Outcome
import Verif.Model.Uuid
import Mathlib.Data.Real.Basic
/-!
# Dynamic objects (dynamic_object.hpp)

`DynObj S C` is `DynamicObject<State, StateCovariance, Tag>`; tracks and detections
are the same structure with different tags (dynamic_object.hpp:314-318).  `Obj2` is a
`std::variant` of two alternatives, e.g. `std::variant<CtrvTrack, CtraTrack>`.

Time stamps are real numbers (`units::time::second_t` is a `double`).
-/

namespace Mot

/-- dynamic_object.hpp:29-36 -/
inductive SemanticClass
  | unknown | smallVehicle | largeVehicle | pedestrian | motorcycle
  deriving DecidableEq, Repr

/-- dynamic_object.hpp:38-50 -/
structure DynObj (S C : Type) where
  timestamp : ℝ
  state : S
  covariance : C
  uuid : Uuid
  semanticClass : SemanticClass

/-- `std::variant<DynamicObject<S₁,C₁>, DynamicObject<S₂,C₂>>` -/
abbrev Obj2 (S₁ C₁ S₂ C₂ : Type) := DynObj S₁ C₁ ⊕ DynObj S₂ C₂

/-- `make_track(detection, uuid)`, dynamic_object.hpp:320-325 -/
def makeTrackWith {S C : Type} (d : DynObj S C) (u : Uuid) : DynObj S C :=
  { timestamp := d.timestamp, state := d.state, covariance := d.covariance, uuid := u,
    semanticClass := d.semanticClass }

/-- `make_track(detection)`, dynamic_object.hpp:327-331 -/
def makeTrack {S C : Type} (d : DynObj S C) : DynObj S C := makeTrackWith d d.uuid

/-- `make_track(variant detection)`, dynamic_object.hpp:333-337 -/
def makeTrack2 {S₁ C₁ S₂ C₂ : Type} : Obj2 S₁ C₁ S₂ C₂ → Obj2 S₁ C₁ S₂ C₂
  | .inl d => .inl (makeTrack d)
  | .inr d => .inr (makeTrack d)

/-- `set_uuid`, dynamic_object.hpp:111-115 -/
def setUuid {S C : Type} (o : DynObj S C) (u : Uuid) : DynObj S C := { o with uuid := u }

/-- `set_uuid` on variants, dynamic_object.hpp:117-121 -/
def setUuid2 {S₁ C₁ S₂ C₂ : Type} (o : Obj2 S₁ C₁ S₂ C₂) (u : Uuid) : Obj2 S₁ C₁ S₂ C₂ :=
  match o with
  | .inl o => .inl (setUuid o u)
  | .inr o => .inr (setUuid o u)

/-- `set_semantic_class`, dynamic_object.hpp:135-140 -/
def setSemanticClass {S C : Type} (o : DynObj S C) (k : SemanticClass) : DynObj S C :=
  { o with semanticClass := k }

/-- `set_semantic_class` on variants, dynamic_object.hpp:142-149 -/
def setSemanticClass2 {S₁ C₁ S₂ C₂ : Type} (o : Obj2 S₁ C₁ S₂ C₂) (k : SemanticClass) :
    Obj2 S₁ C₁ S₂ C₂ :=
  match o with
  | .inl o => .inl (setSemanticClass o k)
  | .inr o => .inr (setSemanticClass o k)

/-- The free functions of dynamic_object.hpp that generic code (the track manager)
uses.  `S`/`C` are the types of the state/covariance arguments.  The four mutating
functions that can throw return the object after the call and the outcome. -/
class TrackOps (τ : Type) (S C : outParam Type) where
  /-- `get_uuid`, dynamic_object.hpp:89-109 -/
  uuid : τ → Uuid
  /-- `get_semantic_class`, dynamic_object.hpp:123-133 -/
  semanticClass : τ → SemanticClass
  /-- `get_timestamp`, dynamic_object.hpp:52-62 -/
  timestamp : τ → ℝ
  /-- `set_timestamp`, dynamic_object.hpp:64-77 -/
  setTimestamp : τ → ℝ → τ
  /-- `set_state`, dynamic_object.hpp:163-191 -/
  setState : τ → S → τ × Outcome Unit
  /-- `set_state_covariance`, dynamic_object.hpp:241-276 -/
  setCovariance : τ → C → τ × Outcome Unit
  /-- `copy_state`, dynamic_object.hpp:193-227 -/
  copyState : τ → τ → τ × Outcome Unit
  /-- `copy_state_covariance`, dynamic_object.hpp:278-312 -/
  copyCovariance : τ → τ → τ × Outcome Unit

/-- Plain (non-variant) objects: the overloads taking a `DynamicObject` never throw. -/
instance instTrackOpsDynObj {S C : Type} : TrackOps (DynObj S C) S C where
  uuid o := o.uuid
  semanticClass o := o.semanticClass
  timestamp o := o.timestamp
  setTimestamp o t := { o with timestamp := t }
  setState o s := ({ o with state := s }, .ok ())
  setCovariance o c := ({ o with covariance := c }, .ok ())
  copyState d s := ({ d with state := s.state }, .ok ())
  copyCovariance d s := ({ d with covariance := s.covariance }, .ok ())

/-- Variant objects: the overloads taking a `std::variant` visit both arguments and
throw `std::runtime_error` when the alternatives do not match
(dynamic_object.hpp:183, :214, :266, :300).

Simplification: `set_state_covariance` on a variant whose alternatives have *Eigen*
covariances of different fixed sizes may be rejected at compile time, because Eigen
matrices convert implicitly; the model keeps the run-time path as written. -/
instance instTrackOpsObj2 {S₁ C₁ S₂ C₂ : Type} :
    TrackOps (Obj2 S₁ C₁ S₂ C₂) (S₁ ⊕ S₂) (C₁ ⊕ C₂) where
  uuid
    | .inl o => o.uuid
    | .inr o => o.uuid
  semanticClass
    | .inl o => o.semanticClass
    | .inr o => o.semanticClass
  timestamp
    | .inl o => o.timestamp
    | .inr o => o.timestamp
  setTimestamp o t := match o with
    | .inl o => .inl { o with timestamp := t }
    | .inr o => .inr { o with timestamp := t }
  setState o s := match o, s with
    | .inl o, .inl s => (.inl { o with state := s }, .ok ())
    | .inr o, .inr s => (.inr { o with state := s }, .ok ())
    | o, _ => (o, .throw .runtimeError)
  setCovariance o c := match o, c with
    | .inl o, .inl c => (.inl { o with covariance := c }, .ok ())
    | .inr o, .inr c => (.inr { o with covariance := c }, .ok ())
    | o, _ => (o, .throw .runtimeError)
  copyState d s := match d, s with
    | .inl d, .inl s => (.inl { d with state := s.state }, .ok ())
    | .inr d, .inr s => (.inr { d with state := s.state }, .ok ())
    | d, _ => (d, .throw .runtimeError)
  copyCovariance d s := match d, s with
    | .inl d, .inl s => (.inl { d with covariance := s.covariance }, .ok ())
    | .inr d, .inr s => (.inr { d with covariance := s.covariance }, .ok ())
    | d, _ => (d, .throw .runtimeError)

end Mot
