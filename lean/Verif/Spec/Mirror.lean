import Verif.Spec.Frames
/-!
# Vocabulary for mirrored coordinates
-/

namespace Mot.Spec

open Matrix

/-- the signs of the components of a state vector in a mirror: y, heading and turn rate change theirs -/
def mirrorSign (i : ℕ) : ℝ := if i = 1 ∨ i = 3 ∨ i = 4 then -1 else 1

/-- the mirror as a matrix -/
def mirrorMatrix (n : ℕ) : Matrix (Fin n) (Fin n) ℝ := diagonal fun i => mirrorSign i

noncomputable instance {S : Type} {n : ℕ} [Mirrorable S] :
    Mirrorable (DynObj S (Matrix (Fin n) (Fin n) ℝ)) := ⟨fun o =>
  { o with
    state := mirror o.state,
    covariance := mirrorMatrix n * o.covariance * (mirrorMatrix n)ᵀ }⟩

/-- states with a heading: reading it, and changing nothing else -/
class Headed (S : Type) where
  heading : S → ℝ
  steer : ℝ → S → S

noncomputable instance : Headed CtrvState :=
  ⟨fun s => s.yaw.getAngle, fun φ s => { s with yaw := Angle.ofRad (s.yaw.getAngle + φ) }⟩
noncomputable instance : Headed CtraState :=
  ⟨fun s => s.yaw.getAngle, fun φ s => { s with yaw := Angle.ofRad (s.yaw.getAngle + φ) }⟩

export Headed (heading steer)

/-- a heading that is neither 0 nor within 3·10⁻¹³ of π: 3.14159265359 separates it from its mirror image -/
def MirrorSafe (ψ : ℝ) : Prop := (0 < ψ ∧ ψ < 2 * Real.pi - yawCut) ∨ (yawCut < ψ ∧ ψ < 2 * Real.pi)

/-- the full circle of the code less the full circle -/
noncomputable def circleExcess : ℝ := 2 * yawCut - 2 * Real.pi

end Mot.Spec
