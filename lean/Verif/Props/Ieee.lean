import Verif.Proofs.Ieee
import Verif.Props.Matching
/-!
# The arithmetic of costs (C23, C24)
-/

namespace Mot.Props

open Mot Spec

/-- C24: results of `float` operations are correctly rounded: below (2²⁵ − 1)·2¹⁰³ to the nearest
number with 24 bits and exponent at least -149, ties to even; from there on to infinity. -/
theorem C24_float_rounding (x : ℚ) :
    (|x| < (2 ^ 25 - 1) * 2 ^ 103 → ∃ q, FP.ofRat binary32 x = .fin q ∧ NearestEven 24 (-149) x q) ∧
    ((2 ^ 25 - 1) * 2 ^ 103 ≤ |x| → FP.ofRat binary32 x = .inf (decide (x < 0))) := by
  have h := binary32.overflow_iff (by decide) (by decide) (by decide +kernel) (by decide) x
  unfold FP.ofRat
  constructor
  · intro hx
    rw [if_pos (h.2 (by simpa [binary32] using hx))]
    exact ⟨_, rfl, binary32.round_nearestEven (by decide) x⟩
  · intro hx
    rw [if_neg fun hc => absurd (h.1 hc) (not_lt.2 (by simpa [binary32] using hx))]

/-- C24: the same for `double`: 53 bits, exponents from -1074. -/
theorem C24_double_rounding (x : ℚ) :
    (|x| < (2 ^ 54 - 1) * 2 ^ 970 → ∃ q, FP.ofRat binary64 x = .fin q ∧
      NearestEven 53 (-1074) x q) ∧
    ((2 ^ 54 - 1) * 2 ^ 970 ≤ |x| → FP.ofRat binary64 x = .inf (decide (x < 0))) := by
  have h := binary64.overflow_iff (by decide) (by decide) (by decide +kernel) (by decide) x
  unfold FP.ofRat
  constructor
  · intro hx
    rw [if_pos (h.2 (by simpa [binary64] using hx))]
    exact ⟨_, rfl, binary64.round_nearestEven (by decide) x⟩
  · intro hx
    rw [if_neg fun hc => absurd (h.1 hc) (not_lt.2 (by simpa [binary64] using hx))]

/-- a tie: 2²⁴ + 1 lies between two floats -/
example : FP.ofRat binary32 (2 ^ 24 + 1) = .fin (2 ^ 24) ∧
    FP.ofRat binary32 (2 ^ 24 + 3) = .fin (2 ^ 24 + 4) := by decide +kernel

/-- C23: negative scores may be undefined behaviour as well, and the limit is where the cost
reaches 2³¹: with largest score 1, a score of -10734711/2¹⁹ ≈ -20.4748 is, the next larger
`float` is not. -/
theorem C23_negative_limit (solve : Solver) :
    (gnnAssociator solve (mkScores [(1, 7, 1), (1, 8, -10734711 / 2 ^ 19)])).IsUb ∧
    (IsPermSolver solve →
      ∃ a, gnnAssociator solve (mkScores [(1, 7, 1), (1, 8, -10734710 / 2 ^ 19)]) = .ok a) := by
  constructor
  · apply gnn_ub_of_cost
    have h : (match costMatrix (scoreMatrix (mkScores [(1, 7, 1), (1, 8, -10734711 / 2 ^ 19)])
        .empty .empty).1 with | .ub _ => true | _ => false) = true := by decide +kernel
    rw [scoreMatrix_eq] at h
    revert h
    cases costMatrix _ <;> simp
  · intro hs
    rcases gnn_cases hs (scores := mkScores [(1, 7, 1), (1, 8, -10734710 / 2 ^ 19)])
      (by decide +kernel) with ⟨h', -⟩ | ⟨a, -, -, -, ha, -⟩
    · have h : (match costMatrix (scoreMatrix (mkScores [(1, 7, 1), (1, 8, -10734710 / 2 ^ 19)])
          .empty .empty).1 with | .ub _ => true | _ => false) = false := by decide +kernel
      rw [scoreMatrix_eq] at h
      revert h h'
      cases costMatrix _ <;> simp
    · exact ⟨a, ha⟩

end Mot.Props
