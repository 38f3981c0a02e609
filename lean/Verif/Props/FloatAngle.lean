import Verif.Proofs.FloatAngle
/-!
# Headings as they are computed (C88)
-/

namespace Mot.Props

open Mot Spec Real

/-- C88: for a phase in [-π, π] the heading is a number in [0, 2π), with the real π; a
nonnegative phase is returned unchanged, a negative one plus 2π up to 2⁻⁵⁰. -/
theorem C88_range (p : ℚ) (h1 : -piD ≤ p) (h2 : p ≤ piD) :
    ∃ a : ℚ, getAngleF (.fin p) = .fin a ∧ 0 ≤ a ∧ (a : ℝ) < 2 * π ∧ (0 ≤ p → a = p) ∧
      (p < 0 → piD ≤ a ∧ |(a : ℝ) - (p + 2 * π)| ≤ 1 / 2 ^ 50) := by
  obtain ⟨b1, b2, b3⟩ := piD_bounds
  rcases lt_or_ge p 0 with hp | hp
  · refine ⟨_, getAngleF_neg hp h1, ?_⟩
    have hlo : piD ≤ binary64.round (p + 2 * piD) := by
      have e : binary64.round piD = piD := by decide +kernel
      rw [← e]
      exact binary64.round_mono_all (by decide) (by rw [e]; linarith)
    have hhi : binary64.round (p + 2 * piD) ≤ 2 * piD := by
      have e : binary64.round (2 * piD) = 2 * piD := by decide +kernel
      rw [← e]
      exact binary64.round_mono_all (by decide) (by rw [e]; linarith)
    have hhi' : ((binary64.round (p + 2 * piD) : ℚ) : ℝ) ≤ 2 * piD := by exact_mod_cast hhi
    have hpi : (0 : ℚ) < piD := by unfold piD; norm_num
    refine ⟨hpi.le.trans hlo, by linarith, fun h => absurd hp (not_lt.2 h), fun _ => ⟨hlo, ?_⟩⟩
    have hw : 0 < p + 2 * piD ∧ p + 2 * piD < 8 := by
      unfold piD at *
      norm_num at *
      constructor <;> linarith
    have herr := binary64.abs_round_sub_le_of_lt (x := p + 2 * piD) (e := 3)
      (by rw [abs_of_pos hw.1]; norm_num; exact hw.2) hw.1.ne' (by decide)
    have herr' : |((binary64.round (p + 2 * piD) : ℚ) : ℝ) - (p + 2 * piD)| ≤ 1 / 2 ^ 51 := by
      have := Rat.cast_le (K := ℝ) |>.2 herr
      have e : ((((2 : ℚ) ^ ((3 : ℤ) - binary64.prec) / 2 : ℚ)) : ℝ) = 1 / 2 ^ 51 := by
        show (((2 : ℚ) ^ ((3 : ℤ) - (53 : ℕ)) / 2 : ℚ) : ℝ) = _
        norm_num
      rw [e] at this
      push_cast at this
      exact this
    have h3 := abs_add_le (((binary64.round (p + 2 * piD) : ℚ) : ℝ) - (p + 2 * piD))
      (2 * piD - 2 * π)
    rw [show ((binary64.round (p + 2 * piD) : ℚ) : ℝ) - (p + 2 * piD) + (2 * piD - 2 * π) =
      ((binary64.round (p + 2 * piD) : ℚ) : ℝ) - (p + 2 * π) by ring,
      abs_of_neg (a := (2 * (piD : ℝ) - 2 * π)) (by linarith)] at h3
    have h4 : 2 * (π - piD) ≤ 1 / 2 ^ 51 := by
      have h1 := Real.pi_lt_d20
      unfold piD
      push_cast
      norm_num at *
      linarith
    refine h3.trans ?_
    have : (1 : ℝ) / 2 ^ 50 = 1 / 2 ^ 51 + 1 / 2 ^ 51 := by norm_num
    linarith
  · have hp' : (p : ℝ) ≤ piD := by exact_mod_cast h2
    have hpi : (0 : ℝ) < π := Real.pi_pos
    exact ⟨p, getAngleF_nonneg hp, hp, by linarith, fun _ => rfl, fun h => absurd hp (not_le.2 h)⟩

/-- the hypotheses are met: a phase of -1 gives 5.283185307179586 -/
example : -piD ≤ -1 ∧ (-1 : ℚ) ≤ piD ∧
    getAngleF (.fin (-1)) = .fin (743542230648227 / 140737488355328) := by
  refine ⟨by unfold piD; norm_num, by unfold piD; norm_num, by decide +kernel⟩

/-- C88: the heading is the `double` 2π (not 0) exactly for phases in [-2⁻⁵¹, 0). -/
theorem C88_two_pi (p : ℚ) (h1 : -piD ≤ p) (h2 : p ≤ piD) :
    getAngleF (.fin p) = .fin (2 * piD) ↔ -(1 / 2 ^ 51) ≤ p ∧ p < 0 := by
  have hpi : (0 : ℚ) < piD := by unfold piD; norm_num
  rcases lt_or_ge p 0 with hp | hp
  · rw [getAngleF_neg hp h1]
    simp only [FP.fin.injEq, hp, and_true]
    constructor
    · intro h
      obtain ⟨m, e, -, -, hn⟩ := binary64.round_nearestEven (by decide) (p + 2 * piD)
      have hc := (hn 7074237752028439 (-50) (by unfold Canonical; decide)).1
      have e1 : ((7074237752028439 : ℤ) : ℚ) * 2 ^ (-50 : ℤ) = 2 * piD - 1 / 2 ^ 50 := by
        unfold piD; norm_num
      rw [h, e1, show 2 * piD - (p + 2 * piD) = -p by ring, abs_neg, abs_of_neg hp,
        show 2 * piD - 1 / 2 ^ 50 - (p + 2 * piD) = -p - 1 / 2 ^ 50 by ring] at hc
      by_contra hlt
      push Not at hlt
      rcases abs_cases (-p - 1 / 2 ^ 50) with ⟨h3, -⟩ | ⟨h3, -⟩
      · rw [h3] at hc; norm_num at *
      · rw [h3] at hc; norm_num at *; linarith
    · intro h
      have e1 : binary64.round (2 * piD) = 2 * piD := by decide +kernel
      have e2 : binary64.round (-(1 / 2 ^ 51) + 2 * piD) = 2 * piD := by decide +kernel
      refine le_antisymm ?_ ?_
      · rw [← e1]
        exact binary64.round_mono_all (by decide) (by rw [e1]; linarith)
      · have := binary64.round_mono_all (by decide) (show -(1 / 2 ^ 51) + 2 * piD ≤ p + 2 * piD by linarith)
        rwa [e2] at this
  · rw [getAngleF_nonneg hp]
    simp only [FP.fin.injEq]
    constructor
    · intro h; linarith
    · intro h; linarith [h.2]

/-- C88: headings keep the order of phases of the same sign; every negative phase is read as a
heading of at least π, every other phase as one of at most π. -/
theorem C88_order (p q : ℚ) (h1 : -piD ≤ p) (h : p ≤ q) (h2 : q ≤ piD) :
    ∃ a b : ℚ, getAngleF (.fin p) = .fin a ∧ getAngleF (.fin q) = .fin b ∧
      ((q < 0 ∨ 0 ≤ p) → a ≤ b) ∧ (p < 0 → 0 ≤ q → b ≤ a) := by
  rcases lt_or_ge q 0 with hq | hq
  · exact ⟨_, _, getAngleF_neg (h.trans_lt hq) h1, getAngleF_neg hq (h1.trans h),
      fun _ => binary64.round_mono_all (by decide) (by linarith), fun _ h' => absurd hq (not_lt.2 h')⟩
  · rcases lt_or_ge p 0 with hp | hp
    · obtain ⟨a, ha, -, -, -, h5⟩ := C88_range p h1 (h.trans h2)
      refine ⟨a, q, ha, getAngleF_nonneg hq, ?_, fun _ _ => h2.trans (h5 hp).1⟩
      rintro (h' | h')
      · exact absurd hq (not_le.2 h')
      · exact absurd hp (not_lt.2 h')
    · exact ⟨p, q, getAngleF_nonneg hp, getAngleF_nonneg hq, fun _ => h,
        fun h' => absurd hp (not_le.2 h')⟩

example : -piD ≤ -2 ∧ (-2 : ℚ) ≤ -1 ∧ (-1 : ℚ) ≤ piD := by
  unfold piD; norm_num

/-- C88: NaN stays NaN. -/
theorem C88_nan : getAngleF .nan = .nan := rfl

/-- C88: two poses at the same place whose phases are 0 and -2⁻⁶⁰ have a Euclidean score of
6.2831855, the `float` next above 2π. -/
theorem C88_wrap_score :
    euclidF ⟨.fin 0, .fin 0, getAngleF (.fin 0)⟩ ⟨.fin 0, .fin 0, getAngleF (.fin (-(1 / 2 ^ 60)))⟩ =
      .fin (13176795 / 2097152) ∧ (2 * π : ℝ) < (13176795 / 2097152 : ℚ) := by
  refine ⟨by decide +kernel, ?_⟩
  have := Real.pi_lt_d20
  push_cast
  linarith

end Mot.Props
