import Verif.Spec.FloatPipeline
import Verif.Model.FloatLlt
/-!
# Vocabulary for statements about covariances that are not numbers
-/

namespace Mot.Spec

variable {m : Libm}

/-- the mathematical library answers NaN to NaN and infinities, as C requires: `sin` and `cos` do, and the complex number an
`Angle` holds is a pair of NaN, whose argument is NaN -/
structure NanMath (m : Libm) : Prop where
  sin_nan : m.sin .nan = .nan
  cos_nan : m.cos .nan = .nan
  sin_inf : ∀ b, m.sin (.inf b) = .nan
  cos_inf : ∀ b, m.cos (.inf b) = .nan
  phase_nan : m.phase (m.ofRad .nan) = .nan
  phase_inf : ∀ b, m.phase (m.ofRad (.inf b)) = .nan

/-- a NaN in or below the diagonal of the covariance -/
def CovarianceNan : FObj m → Prop
  | .inl o => ∃ i j : Fin 5, j ≤ i ∧ o.covariance i j = .nan
  | .inr o => ∃ i j : Fin 6, j ≤ i ∧ o.covariance i j = .nan

/-- the variance with number `k` (x, y, speed, heading, turn rate, acceleration) is infinite -/
def VarianceInfinite (k : ℕ) : FObj m → Prop
  | .inl o => ∃ i : Fin 5, i.1 = k ∧ o.covariance i i = .inf false
  | .inr o => ∃ i : Fin 6, i.1 = k ∧ o.covariance i i = .inf false

/-- `o'` is a result of predicting `o` over some duration with some parameters and a result of
`covariance.llt().matrixL()` of its covariance -/
inductive PredictsLltF : FObj m → FObj m → Prop
  | ctrv {o o' : DynObj (CtrvStateF m) (Matrix (Fin 5) (Fin 5) FP)} (hu : o'.uuid = o.uuid)
      (hc : o'.semanticClass = o.semanticClass) {α β κ dt : FP} {L : Matrix (Fin 5) (Fin 5) FP} {r : Option (Fin 5)}
      (hL : IsLltF o.covariance L r)
      (h : IsTransformF α β κ o.state L dt o'.state o'.covariance) : PredictsLltF (.inl o) (.inl o')
  | ctra {o o' : DynObj (CtraStateF m) (Matrix (Fin 6) (Fin 6) FP)} (hu : o'.uuid = o.uuid)
      (hc : o'.semanticClass = o.semanticClass) {α β κ dt : FP} {L : Matrix (Fin 6) (Fin 6) FP} {r : Option (Fin 6)}
      (hL : IsLltF o.covariance L r)
      (h : IsTransformF α β κ o.state L dt o'.state o'.covariance) : PredictsLltF (.inr o) (.inr o')

end Mot.Spec
