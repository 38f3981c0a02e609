import Verif.Spec.Frames
import Mathlib.LinearAlgebra.Matrix.PosDef
/-!
# Changes of the origin and the unit of time
-/

namespace Mot.Spec

open Real Matrix

/-- the same situation by a clock that is `c` ahead -/
class Delayable (α : Type) where
  later : ℝ → α → α

instance {S C : Type} : Delayable (DynObj S C) := ⟨fun c o => { o with timestamp := o.timestamp + c }⟩
instance {S₁ C₁ S₂ C₂ : Type} : Delayable (Obj2 S₁ C₁ S₂ C₂) :=
  ⟨fun c => Sum.map (Delayable.later c) (Delayable.later c)⟩

/-- the same situation with times in another unit: `k` new units are one old unit, so that speeds
and yaw rates are divided by `k` and accelerations by `k²` -/
class Retimable (α : Type) where
  retime : ℝ → α → α

noncomputable instance : Retimable CtrvState := ⟨fun k s => ⟨s.x, s.y, s.v / k, s.yaw, s.yawRate / k⟩⟩
noncomputable instance : Retimable CtraState := ⟨fun k s =>
  ⟨s.x, s.y, s.v / k, s.yaw, s.yawRate / k, s.a / k ^ 2⟩⟩
noncomputable instance : Retimable ProcessNoise := ⟨fun k n => ⟨n.lin / k ^ 2, n.ang / k ^ 2⟩⟩

/-- the factors of the components of a state vector -/
noncomputable def timeMatrix (n : ℕ) (k : ℝ) : Matrix (Fin n) (Fin n) ℝ :=
  Matrix.diagonal fun i => if i.1 = 2 ∨ i.1 = 4 then 1 / k else if i.1 = 5 then 1 / k ^ 2 else 1

noncomputable instance {S : Type} {n : ℕ} [Retimable S] :
    Retimable (DynObj S (Matrix (Fin n) (Fin n) ℝ)) := ⟨fun k o =>
  { o with
    timestamp := k * o.timestamp,
    state := Retimable.retime k o.state,
    covariance := timeMatrix n k * o.covariance * (timeMatrix n k)ᵀ }⟩
noncomputable instance : Retimable MotObj := ⟨fun k => Sum.map (Retimable.retime k) (Retimable.retime k)⟩

export Delayable (later)
export Retimable (retime)

/-- the yaw rate ω is taken for zero in one unit of time exactly if it is in the other -/
def RateKept (k ω : ℝ) : Prop := |ω / k| < dblMin ↔ |ω| < dblMin

/-- the same for a yaw rate ω and the values `r * c j` on both sides of it -/
def RatesKept {n : ℕ} (k r ω : ℝ) (c : Fin n → ℝ) : Prop :=
  RateKept k ω ∧ ∀ j, RateKept k (ω + r * c j) ∧ RateKept k (ω - r * c j)

/-- `UnscentedTransform(α, β, κ)` takes the same yaw rates for zero in both units of time: the yaw
rate of the object and those of its sigma points -/
def SameTurns (chol : Chol) (α β k : ℝ) : MotObj → Prop
  | .inl o => Matrix.PosDef o.covariance ∧
      RatesKept k √(α ^ 2 * (5 + β)) o.state.yawRate (chol 5 o.covariance 4)
  | .inr o => Matrix.PosDef o.covariance ∧
      RatesKept k √(α ^ 2 * (6 + β)) o.state.yawRate (chol 6 o.covariance 4)

/-- periods at given times with given detections, one after the other, up to the first that does not
return; the association maps of all of them -/
def inTurn {τ : Type} (step : ℝ → List τ → Act (Manager τ) AssociationMap) :
    List (ℝ × List τ) → Act (Manager τ) (List AssociationMap)
  | [] => fun m => (m, .ok [])
  | e :: l => Act.andThen (step e.1 e.2) fun a =>
      Act.andThen (inTurn step l) fun as m => (m, .ok (a :: as))

end Mot.Spec
