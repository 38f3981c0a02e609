import Verif.Model.DynamicObject
/-!
# What can be read of an object
-/

namespace Mot.Spec

/-- the five members of an object; of a variant the state and the covariance say which
alternative they belong to -/
@[ext] structure Fields (S C : Type) where
  time : ℝ
  state : S
  cov : C
  id : Uuid
  cls : SemanticClass

/-- members of an object -/
def fields {S C : Type} (o : DynObj S C) : Fields S C :=
  ⟨o.timestamp, o.state, o.covariance, o.uuid, o.semanticClass⟩

/-- members of a variant -/
def fields2 {S₁ C₁ S₂ C₂ : Type} : Obj2 S₁ C₁ S₂ C₂ → Fields (S₁ ⊕ S₂) (C₁ ⊕ C₂)
  | .inl o => ⟨o.timestamp, .inl o.state, .inl o.covariance, o.uuid, o.semanticClass⟩
  | .inr o => ⟨o.timestamp, .inr o.state, .inr o.covariance, o.uuid, o.semanticClass⟩

/-- two values of alternatives belong to the same alternative -/
def SameSide {A B A' B' : Type} (x : A ⊕ B) (y : A' ⊕ B') : Prop := x.isLeft = y.isLeft

end Mot.Spec
