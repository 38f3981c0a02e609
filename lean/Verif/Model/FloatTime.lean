import Verif.Model.FloatPredict
import Verif.Model.DynamicObject
/-!
# Propagating objects to a time, in floating-point arithmetic (temporal_alignment.hpp)

`units::time::second_t` holds a `double`.  Time stamps are counted from any origin; in practice they
are seconds since 1970.
-/

namespace Mot

/-- `DynamicObject`, dynamic_object.hpp:42-50, with the time stamp as it is stored -/
structure StampedF (S C : Type) where
  timestamp : FP
  state : S
  covariance : C
  uuid : Uuid
  semanticClass : SemanticClass

/-- `time - object.timestamp`, temporal_alignment.hpp:85 -/
def timeStepF (time stamp : FP) : FP := FP.sub binary64 time stamp

/-- A propagator as a relation: state, covariance and duration before, state and covariance after. -/
abbrev PropagatorF (S C : Type) := S → C → FP → S → C → Prop

/-- `o'` is a result of `propagate_to_time(o, time, prop)`, temporal_alignment.hpp:81-87 -/
def IsPropagatedF {S C : Type} (prop : PropagatorF S C) (time : FP) (o o' : StampedF S C) : Prop :=
  ∃ s c, prop o.state o.covariance (timeStepF time o.timestamp) s c ∧
    o' = { o with state := s, covariance := c, timestamp := time }

/-- `UnscentedTransform::operator()`, temporal_alignment.hpp:54-62, for some result of
`covariance.llt().matrixL()` -/
def unscentedF {S : Type} {n : ℕ} [MotionModelF S n] (α β κ : FP) :
    PropagatorF S (Matrix (Fin n) (Fin n) FP) := fun s _ dt s' P' => ∃ L, IsTransformF α β κ s L dt s' P'

end Mot
