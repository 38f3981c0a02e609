import Verif.Model.TrackManager
import Mathlib.LinearAlgebra.Matrix.PosDef
/-!
# Vocabulary for statements about fusing
-/

namespace Mot.Spec

open Matrix

section
variable {τ δ S C S' C' : Type} [TrackOps τ S C] [TrackOps δ S' C']

/-- The pairs of present tracks and detections that the association map associates: keys
in UUID order, then tracks, then detections in container order. -/
def associatedPairs (a : AssociationMap) (ts : List τ) (ds : List δ) : List (τ × δ) := do
  let (u, us) ← a.entries
  let t ← ts.filter fun t => TrackOps.uuid t = u
  let d ← ds.filter fun d => TrackOps.uuid d ∈ us
  pure (t, d)

/-- association whose track and (some) detection are present -/
def Present (ts : List τ) (ds : List δ) (e : Uuid × List Uuid) : Prop :=
  (∃ t ∈ ts, TrackOps.uuid t = e.1) ∧ ∃ d ∈ ds, TrackOps.uuid d ∈ e.2

end

variable {n : ℕ}

/-- `A` is at most `B` in every direction (Loewner order). -/
def CovLE (A B : Matrix (Fin n) (Fin n) ℝ) : Prop := (B - A).PosSemidef

/-- `S₁` and `S₂` are the covariances and `X` the cross covariance of two random vectors. -/
def IsJointCov (S₁ X S₂ : Matrix (Fin n) (Fin n) ℝ) : Prop := (fromBlocks S₁ X Xᵀ S₂).PosSemidef

/-- Covariance of `K e₁ + L e₂` for random vectors `e₁`, `e₂` with covariances `S₁`, `S₂` and
cross covariance `X`. -/
def covOfSum (K L S₁ X S₂ : Matrix (Fin n) (Fin n) ℝ) : Matrix (Fin n) (Fin n) ℝ :=
  K * S₁ * Kᵀ + K * X * Lᵀ + L * Xᵀ * Kᵀ + L * S₂ * Lᵀ

/-- variable number `k` is uncorrelated with the other variables -/
def Uncorrelated (P : Matrix (Fin n) (Fin n) ℝ) (k : Fin n) : Prop := ∀ j, j ≠ k → P k j = 0

end Mot.Spec
