import Verif.Model.Pipeline
import Verif.Model.Ukf
import Verif.Model.Clustering
/-!
# Changes of the coordinate frame
-/

namespace Mot.Spec

open Real

/-- the same situation seen from an origin at (-p, -q): positions move by (p, q) -/
class Shiftable (α : Type) where
  shift : ℝ → ℝ → α → α

instance : Shiftable CtrvState := ⟨fun p q s => { s with x := s.x + p, y := s.y + q }⟩
instance : Shiftable CtraState := ⟨fun p q s => { s with x := s.x + p, y := s.y + q }⟩
instance : Shiftable Point := ⟨fun p q s => { s with x := s.x + p, y := s.y + q }⟩
instance {S C : Type} [Shiftable S] : Shiftable (DynObj S C) :=
  ⟨fun p q o => { o with state := Shiftable.shift p q o.state }⟩
instance {S₁ C₁ S₂ C₂ : Type} [Shiftable S₁] [Shiftable S₂] : Shiftable (Obj2 S₁ C₁ S₂ C₂) :=
  ⟨fun p q => Sum.map (Shiftable.shift p q) (Shiftable.shift p q)⟩

/-- the same situation seen in axes rotated by -φ: positions and headings turn by φ -/
class Turnable (α : Type) where
  turn : ℝ → α → α

noncomputable instance : Turnable CtrvState := ⟨fun φ s =>
  ⟨cos φ * s.x - sin φ * s.y, sin φ * s.x + cos φ * s.y, s.v,
    Angle.ofRad (s.yaw.getAngle + φ), s.yawRate⟩⟩
noncomputable instance : Turnable CtraState := ⟨fun φ s =>
  ⟨cos φ * s.x - sin φ * s.y, sin φ * s.x + cos φ * s.y, s.v,
    Angle.ofRad (s.yaw.getAngle + φ), s.yawRate, s.a⟩⟩

/-- the same situation seen in a mirror: y, heading and yaw rate change sign -/
class Mirrorable (α : Type) where
  mirror : α → α

noncomputable instance : Mirrorable CtrvState := ⟨fun s =>
  ⟨s.x, -s.y, s.v, Angle.ofRad (-s.yaw.getAngle), -s.yawRate⟩⟩
noncomputable instance : Mirrorable CtraState := ⟨fun s =>
  ⟨s.x, -s.y, s.v, Angle.ofRad (-s.yaw.getAngle), -s.yawRate, s.a⟩⟩

/-- the rotation of the x and y components of a state vector -/
noncomputable def turnMatrix (n : ℕ) (φ : ℝ) : Matrix (Fin n) (Fin n) ℝ := fun i j =>
  if i.1 = 0 ∧ j.1 = 0 then cos φ else if i.1 = 0 ∧ j.1 = 1 then -sin φ
  else if i.1 = 1 ∧ j.1 = 0 then sin φ else if i.1 = 1 ∧ j.1 = 1 then cos φ
  else if i = j then 1 else 0

open Matrix in
noncomputable instance {S : Type} {n : ℕ} [Turnable S] :
    Turnable (DynObj S (Matrix (Fin n) (Fin n) ℝ)) := ⟨fun φ o =>
  { o with
    state := Turnable.turn φ o.state,
    covariance := turnMatrix n φ * o.covariance * (turnMatrix n φ)ᵀ }⟩

/-- the same situation with lengths in another unit: `k` new units are one old unit -/
class Rescalable (α : Type) where
  rescale : ℝ → α → α

instance : Rescalable CtrvState := ⟨fun k s => ⟨k * s.x, k * s.y, k * s.v, s.yaw, s.yawRate⟩⟩
instance : Rescalable CtraState := ⟨fun k s =>
  ⟨k * s.x, k * s.y, k * s.v, s.yaw, s.yawRate, k * s.a⟩⟩

/-- the factors of the components of a state vector -/
def unitMatrix (n : ℕ) (k : ℝ) : Matrix (Fin n) (Fin n) ℝ :=
  Matrix.diagonal fun i => if i.1 = 3 ∨ i.1 = 4 then 1 else k

open Matrix in
noncomputable instance {S : Type} {n : ℕ} [Rescalable S] :
    Rescalable (DynObj S (Matrix (Fin n) (Fin n) ℝ)) := ⟨fun k o =>
  { o with
    state := Rescalable.rescale k o.state,
    covariance := unitMatrix n k * o.covariance * (unitMatrix n k)ᵀ }⟩
noncomputable instance : Rescalable MotObj :=
  ⟨fun k => Sum.map (Rescalable.rescale k) (Rescalable.rescale k)⟩

export Rescalable (rescale)
export Shiftable (shift)
export Turnable (turn)
export Mirrorable (mirror)

/-- the heading ψ turned by φ crosses neither 0 nor 3.14159265359 -/
def NoWrap (φ ψ : ℝ) : Prop :=
  (0 ≤ ψ + φ ∧ ψ + φ < 2 * Real.pi) ∧ (ψ ≤ yawCut ↔ ψ + φ ≤ yawCut)

/-- apply a function to the result of a call that returns -/
def onResult {α β : Type} (f : α → β) : Outcome α → Outcome β
  | .ok a => .ok (f a)
  | .throw e => .throw e
  | .ub w => .ub w

/-- apply a function to every track of a manager -/
def onTracks {τ : Type} (f : τ → τ) (m : Manager τ) : Manager τ :=
  ⟨m.promo, m.removal,
    ⟨m.tracks.entries.map fun e => (e.1, f e.2), by
      rw [List.map_map]; exact m.tracks.nodup⟩, m.statuses, m.occ⟩

end Mot.Spec
