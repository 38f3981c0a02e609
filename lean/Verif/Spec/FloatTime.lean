import Verif.Spec.FloatMotion
import Verif.Model.FloatTime
/-!
# Instants, clocks and runs of propagations
-/

namespace Mot.Spec

/-- the `double` t is what a clock stores for the instant T: the nearest one, ties to even -/
def Stored (T t : ℚ) : Prop := NearestEven 53 (-1074) T t

/-- T is an instant between 10 January 2004 and 19 January 2038, in seconds since 1970 -/
def OnClock (T : ℚ) : Prop := 2 ^ 30 ≤ T ∧ T < 2 ^ 31

/-- consecutive times are at most a factor of two apart -/
def WithinTwo (ts : List ℚ) : Prop := ts.IsChain fun s t => s ≤ 2 * t ∧ t ≤ 2 * s

/-- `o'` is a result of propagating `o` to the given times, one after the other -/
inductive PropagatesF {S C : Type} (prop : PropagatorF S C) :
    List FP → StampedF S C → StampedF S C → Prop
  | none (o) : PropagatesF prop [] o o
  | next {t ts o o₁ o'} (h₁ : IsPropagatedF prop t o o₁) (h : PropagatesF prop ts o₁ o') :
      PropagatesF prop (t :: ts) o o'

/-- a propagator that only records the durations it is called with -/
def recording : PropagatorF (List FP) Unit := fun s _ d s' _ => s' = s ++ [d]

end Mot.Spec
