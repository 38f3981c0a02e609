import Verif.Spec.Clustering
import Verif.Model.FloatClustering
/-!
# What detections report, as `double`s; what is assumed of `std::pow(·, 2)`
-/

namespace Mot

variable {m : Libm}

/-- Types of detections: identity and the five quantities they report as `double`s, in the order
x, y, speed, heading, yaw rate. -/
class ReadableF (δ : Type) extends Identified δ where
  reading : δ → Fin 5 → FP

instance {C : Type} : ReadableF (DynObj (CtrvStateF m) C) where
  id d := d.uuid
  reading d := ![d.state.x, d.state.y, d.state.v, m.getAngle d.state.yaw, d.state.yawRate]

instance {C : Type} : ReadableF (DynObj (CtraStateF m) C) where
  id d := d.uuid
  reading d := ![d.state.x, d.state.y, d.state.v, m.getAngle d.state.yaw, d.state.yawRate]

instance {C C' : Type} : ReadableF (Obj2 (CtrvStateF m) C (CtraStateF m) C') where
  id
    | .inl d => d.uuid
    | .inr d => d.uuid
  reading
    | .inl d => ReadableF.reading d
    | .inr d => ReadableF.reading d

namespace Spec

/-- `sq` squares with an error of at most one unit in the last place (and is never negative) as
long as nothing overflows; infinities and NaN give infinity and NaN -/
structure Squares (sq : FP → FP) : Prop where
  fin : ∀ q : ℚ, |q| ≤ 2 ^ 101 → ∃ r : ℚ, sq (.fin q) = .fin r ∧ 0 ≤ r ∧
    |r - q ^ 2| ≤ q ^ 2 / 2 ^ 52 + 1 / 2 ^ 200
  notNeg : ∀ x, sq x ≠ .inf true ∧ ∀ q, sq x = .fin q → 0 ≤ q
  inf : ∀ s, sq (.inf s) = .inf false
  nan : sq .nan = .nan

/-- squared Euclidean distance of two readings -/
def sqDistQ (a b : Fin 5 → ℚ) : ℚ :=
  (a 0 - b 0) ^ 2 + (a 1 - b 1) ^ 2 + (a 2 - b 2) ^ 2 + (a 3 - b 3) ^ 2 + (a 4 - b 4) ^ 2

/-- `a` and `b` differ by a multiple of 2π, up to ε -/
def NearMod2Pi (a b ε : ℝ) : Prop := ∃ k : ℤ, |a - b - k * (2 * Real.pi)| ≤ ε

/-- `d` holds exactly the numbers that the detection `d'` of the exact model reports -/
def Represents {δ δ' : Type} [ReadableF δ] [Readable δ'] (d : δ) (d' : δ') (a : Fin 5 → ℚ) : Prop :=
  Identified.id d' = Identified.id d ∧ (∀ i, ReadableF.reading d i = .fin (a i)) ∧
    Readable.reading d' = ⟨a 0, a 1, a 2, a 3, a 4⟩

end Spec

end Mot
