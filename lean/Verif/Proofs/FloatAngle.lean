import Verif.Model.FloatAngle
import Verif.Proofs.FloatRound
import Mathlib.Analysis.Real.Pi.Bounds
/-!
# Lemmas on `getAngleF`
-/

namespace Mot

open Spec Real

/-- the constant is the `double` nearest to π -/
theorem piD_bounds : (piD : ℝ) < π ∧ π < piD + 1 / 2 ^ 52 ∧ π - piD < 1 / 2 ^ 52 := by
  have h1 := Real.pi_gt_d20
  have h2 := Real.pi_lt_d20
  unfold piD
  push_cast
  norm_num at *
  refine ⟨by linarith, by linarith, by linarith⟩

theorem twoPiD_eq : FP.mul binary64 (.fin 2) (.fin piD) = .fin (2 * piD) := by
  decide +kernel

theorem getAngleF_neg {p : ℚ} (hp : p < 0) (hp' : -piD ≤ p) :
    getAngleF (.fin p) = .fin (binary64.round (p + 2 * piD)) := by
  unfold getAngleF
  rw [if_pos (by simp [FP.gt, hp]), twoPiD_eq]
  refine b64_ofRat ?_
  unfold piD at *
  rw [abs_of_nonneg (by linarith)]
  norm_num
  linarith

theorem getAngleF_nonneg {p : ℚ} (hp : 0 ≤ p) : getAngleF (.fin p) = .fin p := by
  unfold getAngleF
  rw [if_neg]
  simp [FP.gt, hp]

end Mot
