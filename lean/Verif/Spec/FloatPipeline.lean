import Verif.Model.FloatFusing
import Verif.Spec.Pipeline
/-!
# Vocabulary for statements about the pipeline in floating-point arithmetic
-/

namespace Mot.Spec

variable {m : Libm}

/-- CTRV and CTRA objects of `double`s and `float`s -/
abbrev FObj (m : Libm) : Type :=
  Obj2 (CtrvStateF m) (Matrix (Fin 5) (Fin 5) FP) (CtraStateF m) (Matrix (Fin 6) (Fin 6) FP)

/-- the numbers of the state; the heading is not among them -/
def numbers : FObj m → List FP
  | .inl o => [o.state.x, o.state.y, o.state.v, o.state.yawRate]
  | .inr o => [o.state.x, o.state.y, o.state.v, o.state.yawRate, o.state.a]

/-- the position -/
def position : FObj m → List FP
  | .inl o => [o.state.x, o.state.y]
  | .inr o => [o.state.x, o.state.y]

/-- `f` is a result of fusing the track `t` with the detection `d`; only objects of the same kind
are fused -/
inductive FusesF (E : EigenF) : FObj m → FObj m → FObj m → Prop
  | ctrv {t d f : DynObj (CtrvStateF m) (Matrix (Fin 5) (Fin 5) FP)} (h : IsFusedF E t d f) :
      FusesF E (.inl t) (.inl d) (.inl f)
  | ctra {t d f : DynObj (CtraStateF m) (Matrix (Fin 6) (Fin 6) FP)} (h : IsFusedF E t d f) :
      FusesF E (.inr t) (.inr d) (.inr f)

/-- the weight with which two objects of the same kind are fused -/
def fusionWeight (E : EigenF) : FObj m → FObj m → Option FP
  | .inl t, .inl d => some (generateWeightF E (E.inv t.covariance) (E.inv d.covariance))
  | .inr t, .inr d => some (generateWeightF E (E.inv t.covariance) (E.inv d.covariance))
  | _, _ => none

/-- `o'` is a result of predicting `o` over some duration with some parameters and some
`covariance.llt().matrixL()` -/
inductive PredictsF : FObj m → FObj m → Prop
  | ctrv {o o' : DynObj (CtrvStateF m) (Matrix (Fin 5) (Fin 5) FP)} (hu : o'.uuid = o.uuid)
      (hc : o'.semanticClass = o.semanticClass) {α β κ dt : FP} {L : Matrix (Fin 5) (Fin 5) FP}
      (h : IsTransformF α β κ o.state L dt o'.state o'.covariance) : PredictsF (.inl o) (.inl o')
  | ctra {o o' : DynObj (CtraStateF m) (Matrix (Fin 6) (Fin 6) FP)} (hu : o'.uuid = o.uuid)
      (hc : o'.semanticClass = o.semanticClass) {α β κ dt : FP} {L : Matrix (Fin 6) (Fin 6) FP}
      (h : IsTransformF α β κ o.state L dt o'.state o'.covariance) : PredictsF (.inr o) (.inr o')

/-- objects of the same kind have score NaN if a coordinate of either position is NaN -/
def NanScores (metric : FObj m → FObj m → Option FP) : Prop :=
  ∀ t d : FObj m, t.isLeft = d.isLeft → FP.nan ∈ position t ∨ FP.nan ∈ position d →
    metric t d = some .nan

end Mot.Spec
