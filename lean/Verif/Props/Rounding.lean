import Verif.Model.Rounding
import Verif.Proofs.Motion
import Mathlib.Analysis.Real.Pi.Bounds
import Mathlib.Analysis.Real.Pi.Irrational
/-!
# Properties of the rounding helpers (C66) and of state comparison (C71)
-/

namespace Mot.Props

open Mot Real

/-! ## C66 -/

theorem stdRound_neg (x : ℝ) : stdRound (-x) = -stdRound x := by
  unfold stdRound
  rcases lt_trichotomy x 0 with h | h | h
  · rw [if_pos (by linarith), if_neg (by linarith), ← Int.cast_neg, ← Int.floor_neg]
    congr 2; ring
  · subst h; norm_num
  · rw [if_neg (by linarith), if_pos h.le, ← Int.cast_neg, ← Int.ceil_neg]
    congr 2; ring

/-- the result is an integer at distance at most 1/2; of two such the one further from
zero -/
theorem stdRound_spec (x : ℝ) :
    (∃ k : ℤ, stdRound x = k) ∧ |stdRound x - x| ≤ 1 / 2 ∧
    (|stdRound x - x| = 1 / 2 → |x| < |stdRound x|) := by
  have key : ∀ x : ℝ, 0 ≤ x → (∃ k : ℤ, stdRound x = k) ∧ |stdRound x - x| ≤ 1 / 2 ∧
      (|stdRound x - x| = 1 / 2 → |x| < |stdRound x|) := by
    intro x hx
    have h1 := Int.floor_le (x + 1 / 2)
    have h2 := Int.lt_floor_add_one (x + 1 / 2)
    have h0 : (0 : ℝ) ≤ ⌊x + 1 / 2⌋ := by exact_mod_cast Int.floor_nonneg.2 (by linarith)
    unfold stdRound
    rw [if_pos hx]
    refine ⟨⟨_, rfl⟩, abs_le.2 ⟨by linarith, by linarith⟩, fun h => ?_⟩
    rw [abs_of_nonneg hx, abs_of_nonneg h0]
    rcases abs_eq (by norm_num : (0 : ℝ) ≤ 1 / 2) |>.1 h with h | h <;> linarith
  rcases le_or_gt 0 x with h | h
  · exact key x h
  · obtain ⟨⟨k, h1⟩, h2, h3⟩ := key (-x) (by linarith)
    rw [stdRound_neg] at h1 h2 h3
    have e : |-stdRound x - -x| = |stdRound x - x| := by rw [← abs_neg]; congr 1; ring
    rw [e] at h2 h3
    rw [abs_neg, abs_neg] at h3
    exact ⟨⟨-k, by push_cast; linarith⟩, h2, h3⟩

theorem stdRound_int (k : ℤ) : stdRound k = k := by
  obtain ⟨⟨m, hm⟩, h, _⟩ := stdRound_spec (k : ℝ)
  rw [hm] at h ⊢
  have h1 : |((m - k : ℤ) : ℝ)| ≤ 1 / 2 := by push_cast; exact h
  have h2 : |m - k| < 1 := by
    have : ((|m - k| : ℤ) : ℝ) < 1 := by rw [Int.cast_abs]; linarith
    exact_mod_cast this
  have : m = k := by rw [Int.abs_lt_one_iff] at h2; omega
  rw [this]

theorem stdRound_mono {x y : ℝ} (h : x ≤ y) : stdRound x ≤ stdRound y := by
  unfold stdRound
  split <;> split
  · exact_mod_cast Int.floor_le_floor (by linarith)
  · linarith
  · have h1 : ⌈x - 1 / 2⌉ ≤ 0 := Int.ceil_le.2 (by push_cast; linarith)
    have h2 : 0 ≤ ⌊y + 1 / 2⌋ := Int.floor_nonneg.2 (by linarith)
    exact_mod_cast h1.trans h2
  · exact_mod_cast Int.ceil_le_ceil (by linarith)

theorem pow10_pos (d : ℕ) : (0 : ℝ) < 10 ^ d := by positivity

/-- C66: rounding returns the nearest multiple of 10^-d, the one further from zero in a
tie. -/
theorem C66_nearest (x : ℝ) (d : ℕ) :
    (∃ k : ℤ, roundDec x d = k / 10 ^ d) ∧ |roundDec x d - x| ≤ 1 / 2 / 10 ^ d ∧
    (|roundDec x d - x| = 1 / 2 / 10 ^ d → |x| < |roundDec x d|) := by
  have hp := pow10_pos d
  obtain ⟨⟨k, h1⟩, h2, h3⟩ := stdRound_spec (x * 10 ^ d)
  have e : |roundDec x d - x| = |stdRound (x * 10 ^ d) - x * 10 ^ d| / 10 ^ d := by
    rw [← abs_of_pos hp, ← abs_div, abs_of_pos hp]
    congr 1
    unfold roundDec
    field_simp
  refine ⟨⟨k, by unfold roundDec; rw [← h1]⟩, ?_, fun h => ?_⟩
  · rw [e]; gcongr
  · rw [e, div_left_inj' hp.ne'] at h
    have h4 := h3 h
    rw [abs_mul, abs_of_pos hp] at h4
    unfold roundDec
    simp only
    rw [abs_div, abs_of_pos hp, lt_div_iff₀ hp]
    exact h4

/-- C66: rounding is monotone, odd and idempotent. -/
theorem C66_mono_odd_idem (x y : ℝ) (d : ℕ) :
    (x ≤ y → roundDec x d ≤ roundDec y d) ∧ roundDec (-x) d = -roundDec x d ∧
    roundDec (roundDec x d) d = roundDec x d := by
  have hp := pow10_pos d
  refine ⟨fun h => ?_, ?_, ?_⟩
  · exact div_le_div_of_nonneg_right (stdRound_mono (by gcongr)) hp.le
  · unfold roundDec
    simp only
    rw [neg_mul, stdRound_neg, neg_div]
  · obtain ⟨⟨k, h1⟩, _⟩ := stdRound_spec (x * 10 ^ d)
    unfold roundDec
    simp only
    rw [h1, div_mul_cancel₀ _ hp.ne', stdRound_int]

/-- C66: matrices are rounded element by element. -/
theorem C66_matrix {m n : Type} (A : Matrix m n ℝ) (d : ℕ) (i : m) (j : n) :
    |roundMatrix A d i j - A i j| ≤ 1 / 2 / 10 ^ d ∧
    roundMatrix (roundMatrix A d) d = roundMatrix A d :=
  ⟨(C66_nearest _ d).2.1, by funext i j; exact (C66_mono_odd_idem _ 0 d).2.2⟩

/-- C66: states are rounded component by component, the yaw modulo 2π. -/
theorem C66_state (s : CtrvState) (r : CtraState) (d : ℕ) :
    |(s.round d).x - s.x| ≤ 1 / 2 / 10 ^ d ∧ |(s.round d).y - s.y| ≤ 1 / 2 / 10 ^ d ∧
    |(s.round d).v - s.v| ≤ 1 / 2 / 10 ^ d ∧ |(s.round d).yawRate - s.yawRate| ≤ 1 / 2 / 10 ^ d ∧
    (∃ ψ, SameDir (s.round d).yaw.getAngle ψ ∧ |ψ - s.yaw.getAngle| ≤ 1 / 2 / 10 ^ d) ∧
    |(r.round d).x - r.x| ≤ 1 / 2 / 10 ^ d ∧ |(r.round d).y - r.y| ≤ 1 / 2 / 10 ^ d ∧
    |(r.round d).v - r.v| ≤ 1 / 2 / 10 ^ d ∧ |(r.round d).yawRate - r.yawRate| ≤ 1 / 2 / 10 ^ d ∧
    |(r.round d).a - r.a| ≤ 1 / 2 / 10 ^ d ∧
    (∃ ψ, SameDir (r.round d).yaw.getAngle ψ ∧ |ψ - r.yaw.getAngle| ≤ 1 / 2 / 10 ^ d) :=
  have h := fun x => (C66_nearest x d).2.1
  ⟨h _, h _, h _, h _, ⟨_, Angle.sameDir_getAngle _, h _⟩, h _, h _, h _, h _, h _,
    ⟨_, Angle.sameDir_getAngle _, h _⟩⟩

/-- C66: process noise is rounded member by member, and rounding it twice changes nothing. -/
theorem C66_noise (n : ProcessNoise) (d : ℕ) :
    |(n.round d).lin - n.lin| ≤ 1 / 2 / 10 ^ d ∧ |(n.round d).ang - n.ang| ≤ 1 / 2 / 10 ^ d ∧
    (n.round d).round d = n.round d := by
  have h := fun x => (C66_nearest x d).2.1
  refine ⟨h _, h _, ?_⟩
  unfold ProcessNoise.round
  simp only [(C66_mono_odd_idem _ 0 d).2.2]

/-- C66: for whole states idempotence is false.  A yaw of 6.27 rounds (one decimal) to
6.3, which is stored as 6.3 - 2π ≈ 0.017 and rounds to 0 the next time. -/
theorem C66_state_not_idempotent :
    ∃ s : CtrvState, s.Valid ∧ (s.round 1).round 1 ≠ s.round 1 := by
  have h1 := Real.pi_gt_d4
  have h2 := Real.pi_lt_d4
  refine ⟨⟨0, 0, 0, Angle.ofRad (627 / 100), 0⟩, Angle.valid_ofRad _, fun h => ?_⟩
  have e1 : (Angle.ofRad (627 / 100)).getAngle = 627 / 100 :=
    Angle.getAngle_ofRad_of_range ⟨by norm_num, by linarith⟩
  have e2 : roundDec (627 / 100) 1 = 63 / 10 := by
    have : ⌊(627 / 100 : ℝ) * 10 ^ 1 + 1 / 2⌋ = 63 := by rw [Int.floor_eq_iff]; norm_num
    unfold roundDec stdRound
    simp only
    rw [if_pos (by norm_num), this]; norm_num
  have e3 : (Angle.ofRad (63 / 10)).getAngle = 63 / 10 - 2 * π := by
    rw [Angle.ofRad_eq_iff.2 (⟨1, by push_cast; ring⟩ : SameDir (63 / 10) (63 / 10 - 2 * π))]
    exact Angle.getAngle_ofRad_of_range ⟨by linarith, by linarith⟩
  have e4 : roundDec (63 / 10 - 2 * π) 1 = 0 := by
    have : ⌊(63 / 10 - 2 * π) * 10 ^ 1 + 1 / 2⌋ = 0 := by
      rw [Int.floor_eq_iff]; push_cast; constructor <;> linarith
    unfold roundDec stdRound
    simp only
    rw [if_pos (by linarith), this]; norm_num
  have hy : ((CtrvState.round (CtrvState.round ⟨0, 0, 0, Angle.ofRad (627 / 100), 0⟩ 1) 1).yaw).getAngle
      = ((CtrvState.round ⟨0, 0, 0, Angle.ofRad (627 / 100), 0⟩ 1).yaw).getAngle := by rw [h]
  simp only [CtrvState.round, e1, e2, e3, e4] at hy
  rw [Angle.getAngle_ofRad_of_range ⟨le_rfl, by linarith⟩] at hy
  linarith

theorem round_yaw_idem_iff (θ : Angle) (d : ℕ) :
    Angle.ofRad (roundDec (Angle.ofRad (roundDec θ.getAngle d)).getAngle d) =
      Angle.ofRad (roundDec θ.getAngle d) ↔ roundDec θ.getAngle d < 2 * π := by
  have hpi := Real.pi_gt_three
  obtain ⟨h0, h2⟩ := Angle.getAngle_range θ
  have hr0 : 0 ≤ roundDec θ.getAngle d := by
    have := (C66_mono_odd_idem 0 θ.getAngle d).1 h0
    have h := (C66_mono_odd_idem 0 0 d).2.1
    rw [neg_zero] at h
    linarith
  have hd : (1 / 2 / 10 ^ d : ℝ) ≤ 1 / 2 := by
    apply div_le_self (by norm_num)
    exact one_le_pow₀ (by norm_num)
  constructor
  · intro h
    by_contra hge
    push Not at hge
    obtain ⟨⟨m, hm⟩, hn, -⟩ := C66_nearest θ.getAngle d
    have hw : (Angle.ofRad (roundDec θ.getAngle d)).getAngle = roundDec θ.getAngle d - 2 * π := by
      rw [Angle.ofRad_eq_iff.2 (⟨1, by push_cast; ring⟩ :
        SameDir (roundDec θ.getAngle d) (roundDec θ.getAngle d - 2 * π))]
      have := (abs_le.1 hn).2
      exact Angle.getAngle_ofRad_of_range ⟨by linarith, by linarith⟩
    rw [hw] at h
    obtain ⟨⟨m', hm'⟩, hn', -⟩ := C66_nearest (roundDec θ.getAngle d - 2 * π) d
    obtain ⟨k, hk⟩ := Angle.ofRad_eq_iff.1 h
    have hn2 := (abs_le.1 hn').2
    rcases eq_or_ne k 0 with rfl | hk0
    · push_cast at hk
      linarith
    · -- π would be rational
      refine irrational_pi ⟨(m' - m) / 10 ^ d / (2 * k), ?_⟩
      rw [hm', hm] at hk
      have hk' : (k : ℝ) ≠ 0 := by exact_mod_cast hk0
      push_cast
      rw [div_eq_iff (by simpa using hk')]
      linear_combination hk
  · intro h
    rw [Angle.getAngle_ofRad_of_range ⟨hr0, h⟩, (C66_mono_odd_idem θ.getAngle 0 d).2.2]

/-- C66: rounding a state twice is the same as rounding it once exactly if its yaw does not round up
past 2π (both motion models). -/
theorem C66_state_idempotent_iff (s : CtrvState) (r : CtraState) (d : ℕ) :
    ((s.round d).round d = s.round d ↔ roundDec s.yaw.getAngle d < 2 * π) ∧
    ((r.round d).round d = r.round d ↔ roundDec r.yaw.getAngle d < 2 * π) := by
  have hi := fun x => (C66_mono_odd_idem x 0 d).2.2
  constructor
  · rw [← round_yaw_idem_iff]
    exact ⟨fun h => congrArg CtrvState.yaw h,
      fun h => CtrvState.ext' (hi _) (hi _) (hi _) h (hi _)⟩
  · rw [← round_yaw_idem_iff]
    exact ⟨fun h => congrArg CtraState.yaw h,
      fun h => CtraState.ext' (hi _) (hi _) (hi _) h (hi _) (hi _)⟩

/-- a tie: 0.25 rounds to 0.3 and -0.25 to -0.3 -/
example : roundDec (1 / 4) 1 = 3 / 10 ∧ roundDec (-(1 / 4)) 1 = -(3 / 10) := by
  have h : roundDec (1 / 4) 1 = 3 / 10 := by
    have : ⌊(1 / 4 : ℝ) * 10 ^ 1 + 1 / 2⌋ = 3 := by rw [Int.floor_eq_iff]; norm_num
    unfold roundDec stdRound
    simp only
    rw [if_pos (by norm_num), this]; norm_num
  exact ⟨h, by rw [(C66_mono_odd_idem _ 0 1).2.1, h]⟩

/-! ## C71 -/

theorem unitsEq_refl (x : ℝ) : unitsEq x x := by
  right; rw [sub_self, abs_zero]; exact dblMin_pos

theorem unitsEq_symm {x y : ℝ} (h : unitsEq x y) : unitsEq y x := by
  unfold unitsEq at *
  rwa [abs_sub_comm, add_comm]

/-- C71, what holds: state comparison is reflexive and symmetric, equal states compare
equal, and states that compare equal have the same yaw. -/
theorem C71_eq_partial (s t : CtrvState) (s' t' : CtraState) :
    s.eq s ∧ (s.eq t → t.eq s) ∧ s'.eq s' ∧ (s'.eq t' → t'.eq s') ∧
    (s.eq t → s.yaw = t.yaw) ∧ (s'.eq t' → s'.yaw = t'.yaw) := by
  refine ⟨⟨unitsEq_refl _, unitsEq_refl _, unitsEq_refl _, rfl, unitsEq_refl _⟩, ?_,
    ⟨unitsEq_refl _, unitsEq_refl _, unitsEq_refl _, rfl, unitsEq_refl _, unitsEq_refl _⟩, ?_, ?_, ?_⟩
  · rintro ⟨h1, h2, h3, h4, h5⟩
    exact ⟨unitsEq_symm h1, unitsEq_symm h2, unitsEq_symm h3, h4.symm, unitsEq_symm h5⟩
  · rintro ⟨h1, h2, h3, h4, h5, h6⟩
    exact ⟨unitsEq_symm h1, unitsEq_symm h2, unitsEq_symm h3, h4.symm, unitsEq_symm h5,
      unitsEq_symm h6⟩
  · rintro ⟨_, _, _, h, _⟩; exact Angle.ext h
  · rintro ⟨_, _, _, h, _⟩; exact Angle.ext h

theorem unitsEq_of_close {a b : ℝ} (h : |a - b| < 1 / 2 ^ 52 * max |a| |b|) : unitsEq a b := by
  have he : (0 : ℝ) < dblEpsilon := by unfold dblEpsilon; positivity
  have he1 : dblEpsilon ≤ 1 := by unfold dblEpsilon; norm_num
  left
  change |a - b| < dblEpsilon * max |a| |b| at h
  refine h.trans_le (mul_le_mul_of_nonneg_left ?_ he.le)
  have hm : 0 ≤ max |a| |b| := le_max_of_le_left (abs_nonneg a)
  have h1 : |a - b| < max |a| |b| := h.trans_le (by nlinarith)
  have h2 : 2 * max |a| |b| ≤ |a + b| + |a - b| := by
    rcases le_total |a| |b| with h | h
    · rw [max_eq_right h]
      have := abs_add_le (a + b) (-(a - b))
      rw [show a + b + -(a - b) = 2 * b by ring, abs_neg, abs_mul, abs_two] at this
      exact this
    · rw [max_eq_left h]
      have := abs_add_le (a + b) (a - b)
      rw [show a + b + (a - b) = 2 * a by ring, abs_mul, abs_two] at this
      exact this
  linarith

theorem close_of_unitsEq {a b : ℝ} (h : unitsEq a b) :
    |a - b| ≤ 1 / 2 ^ 51 * max |a| |b| ∨ |a - b| < 1 / 2 ^ 1022 := by
  rcases h with h | h
  · left
    have he : (0 : ℝ) < dblEpsilon := by unfold dblEpsilon; positivity
    have h1 : |a + b| ≤ 2 * max |a| |b| := by
      have := abs_add_le a b
      have := le_max_left |a| |b|
      have := le_max_right |a| |b|
      linarith
    calc |a - b| ≤ dblEpsilon * (2 * max |a| |b|) :=
          h.le.trans (mul_le_mul_of_nonneg_left h1 he.le)
      _ = 1 / 2 ^ 51 * max |a| |b| := by unfold dblEpsilon; ring
  · exact Or.inr h

/-- C71, the tolerance: states with the same yaw whose other components agree to a relative
error below 2^-52 compare equal, and states that compare equal agree in every component to a
relative error of 2^-51 (or differ by less than the smallest normal double). -/
theorem C71_tolerance_partial (s t : CtrvState) (s' t' : CtraState) :
    (s.yaw = t.yaw → (∀ i, i ≠ 3 → s.toVec i = t.toVec i ∨
      |s.toVec i - t.toVec i| < 1 / 2 ^ 52 * max |s.toVec i| |t.toVec i|) → s.eq t) ∧
    (s.eq t → ∀ i, |s.toVec i - t.toVec i| ≤ 1 / 2 ^ 51 * max |s.toVec i| |t.toVec i| ∨
      |s.toVec i - t.toVec i| < 1 / 2 ^ 1022) ∧
    (s'.yaw = t'.yaw → (∀ i, i ≠ 3 → s'.toVec i = t'.toVec i ∨
      |s'.toVec i - t'.toVec i| < 1 / 2 ^ 52 * max |s'.toVec i| |t'.toVec i|) → s'.eq t') ∧
    (s'.eq t' → ∀ i, |s'.toVec i - t'.toVec i| ≤ 1 / 2 ^ 51 * max |s'.toVec i| |t'.toVec i| ∨
      |s'.toVec i - t'.toVec i| < 1 / 2 ^ 1022) := by
  have key : ∀ {a b : ℝ}, a = b ∨ |a - b| < 1 / 2 ^ 52 * max |a| |b| → unitsEq a b := by
    rintro a b (rfl | h)
    exacts [unitsEq_refl _, unitsEq_of_close h]
  refine ⟨fun hy h => ?_, fun h i => ?_, fun hy h => ?_, fun h i => ?_⟩
  · exact ⟨key (h 0 (by decide)), key (h 1 (by decide)), key (h 2 (by decide)),
      congrArg Angle.value hy, key (h 4 (by decide))⟩
  · obtain ⟨h0, h1, h2, h3, h4⟩ := h
    have hy : s.yaw.getAngle = t.yaw.getAngle := by rw [Angle.ext h3]
    fin_cases i
    exacts [close_of_unitsEq h0, close_of_unitsEq h1, close_of_unitsEq h2,
      close_of_unitsEq (show unitsEq s.yaw.getAngle t.yaw.getAngle from hy ▸ unitsEq_refl _),
      close_of_unitsEq h4]
  · exact ⟨key (h 0 (by decide)), key (h 1 (by decide)), key (h 2 (by decide)),
      congrArg Angle.value hy, key (h 4 (by decide)), key (h 5 (by decide))⟩
  · obtain ⟨h0, h1, h2, h3, h4, h5⟩ := h
    have hy : s'.yaw.getAngle = t'.yaw.getAngle := by rw [Angle.ext h3]
    fin_cases i
    exacts [close_of_unitsEq h0, close_of_unitsEq h1, close_of_unitsEq h2,
      close_of_unitsEq (show unitsEq s'.yaw.getAngle t'.yaw.getAngle from hy ▸ unitsEq_refl _),
      close_of_unitsEq h4, close_of_unitsEq h5]

/-- two different states that compare equal: 1 and 1 + 2^-53 -/
example : ∃ s t : CtrvState, s.x ≠ t.x ∧ s.eq t := by
  refine ⟨⟨1, 0, 0, Angle.ofRad 1, 0⟩, ⟨1 + 1 / 2 ^ 53, 0, 0, Angle.ofRad 1, 0⟩, by norm_num, ?_⟩
  refine (C71_tolerance_partial _ _ ⟨0, 0, 0, Angle.ofRad 1, 0, 0⟩ ⟨0, 0, 0, Angle.ofRad 1, 0, 0⟩).1 rfl ?_
  intro i hi
  fin_cases i
  · right
    show |(1 : ℝ) - (1 + 1 / 2 ^ 53)| < 1 / 2 ^ 52 * max |1| |1 + 1 / 2 ^ 53|
    have : (1 : ℝ) ≤ max |1| |1 + 1 / 2 ^ 53| := le_max_of_le_left (by norm_num)
    have h2 : |(1 : ℝ) - (1 + 1 / 2 ^ 53)| = 1 / 2 ^ 53 := by norm_num
    rw [h2]
    refine lt_of_lt_of_le ?_ (le_mul_of_one_le_right (by positivity) this)
    norm_num
  · exact Or.inl rfl
  · exact Or.inl rfl
  · exact absurd rfl hi
  · exact Or.inl rfl

/-- C71 is false: comparison of states is not transitive, so it is not an equivalence
relation as unordered containers require. -/
theorem C71_not_transitive :
    ∃ s t r : CtrvState, s.eq t ∧ t.eq r ∧ ¬ s.eq r := by
  have hpos : (0 : ℝ) < dblEpsilon := by unfold dblEpsilon; positivity
  have hsmall : dblEpsilon ≤ 1 / 2 ^ 52 := le_of_eq rfl
  have hmin : dblMin ≤ dblEpsilon := by
    unfold dblMin dblEpsilon
    exact one_div_le_one_div_of_le (by positivity) (pow_le_pow_right₀ (by norm_num) (by norm_num))
  set e := dblEpsilon with he
  have he1 : e ≤ 1 / 4 := hsmall.trans (by norm_num)
  let st : ℝ → CtrvState := fun x => ⟨x, 0, 0, Angle.ofRad 0, 0⟩
  have hst : ∀ x y, (st x).eq (st y) ↔ unitsEq x y := fun x y =>
    ⟨fun h => h.1, fun h => ⟨h, unitsEq_refl _, unitsEq_refl _, rfl, unitsEq_refl _⟩⟩
  -- 1, 1 + 2e, 1 + 4e
  refine ⟨st 1, st (1 + 2 * e), st (1 + 4 * e), ?_, ?_, ?_⟩
  · rw [hst]
    left
    rw [show (1 : ℝ) - (1 + 2 * e) = -(2 * e) by ring, abs_neg, abs_of_pos (by linarith),
      abs_of_pos (by linarith), ← he]
    nlinarith
  · rw [hst]
    left
    rw [show (1 + 2 * e : ℝ) - (1 + 4 * e) = -(2 * e) by ring, abs_neg, abs_of_pos (by linarith),
      abs_of_pos (by linarith), ← he]
    nlinarith
  · rw [hst]
    rintro (h | h)
    · rw [show (1 : ℝ) - (1 + 4 * e) = -(4 * e) by ring, abs_neg, abs_of_pos (by linarith),
        abs_of_pos (by linarith), ← he] at h
      nlinarith
    · rw [show (1 : ℝ) - (1 + 4 * e) = -(4 * e) by ring, abs_neg, abs_of_pos (by linarith)] at h
      linarith

/-- one step between quantities that compare equal, seen from the first of them -/
private theorem step_of_unitsEq {a b : ℝ} (h : unitsEq a b) :
    |b - a| ≤ 1 / (2 ^ 51 - 1) * |a| + 1 / 2 ^ 1022 := by
  have hpos : (0 : ℝ) ≤ 1 / 2 ^ 1022 := by positivity
  have ha := abs_nonneg a
  rw [abs_sub_comm]
  rcases close_of_unitsEq h with h | h
  · have hb : |b| ≤ |a| + |a - b| := by
      have := abs_add_le a (b - a)
      rw [add_sub_cancel, abs_sub_comm b a] at this
      exact this
    have hm : max |a| |b| ≤ |a| + |a - b| := max_le (by linarith [abs_nonneg (a - b)]) hb
    generalize |a - b| = d at *
    generalize |a| = x at *
    have h1 : d ≤ 1 / 2 ^ 51 * (x + d) := h.trans (mul_le_mul_of_nonneg_left hm (by norm_num))
    have h2 : d ≤ 1 / (2 ^ 51 - 1) * x := by
      rw [div_mul_eq_mul_div, le_div_iff₀ (by norm_num)]
      rw [div_mul_eq_mul_div, le_div_iff₀ (by norm_num)] at h1
      linarith
    linarith
  · have : (0 : ℝ) ≤ 1 / (2 ^ 51 - 1) * |a| := mul_nonneg (by norm_num) ha
    linarith

private theorem chain_of_unitsEq {f : ℕ → ℝ} {k : ℕ} (h : ∀ i < k, unitsEq (f i) (f (i + 1))) :
    |f k - f 0| ≤ ((1 + 1 / (2 ^ 51 - 1)) ^ k - 1) * (|f 0| + (2 ^ 51 - 1) / 2 ^ 1022) := by
  induction k with
  | zero => simp
  | succ k ih =>
    have h1 := ih fun i hi => h i (by omega)
    have h2 := step_of_unitsEq (h k (by omega))
    have h3 : |f k| ≤ |f 0| + |f k - f 0| := by
      have := abs_add_le (f 0) (f k - f 0)
      rwa [add_sub_cancel] at this
    have h4 : |f (k + 1) - f 0| ≤ |f (k + 1) - f k| + |f k - f 0| := by
      have := abs_add_le (f (k + 1) - f k) (f k - f 0)
      rwa [sub_add_sub_cancel] at this
    have hμ : (1 : ℝ) / 2 ^ 1022 = 1 / (2 ^ 51 - 1) * ((2 ^ 51 - 1) / 2 ^ 1022) := by
      rw [div_mul_div_comm, one_mul, mul_comm ((2 : ℝ) ^ 51 - 1) (2 ^ 1022),
        ← div_div, div_right_comm, div_self (by norm_num)]
    rw [hμ] at h2
    generalize ((2 : ℝ) ^ 51 - 1) / 2 ^ 1022 = μ at *
    have hδ : (0 : ℝ) ≤ 1 / (2 ^ 51 - 1) := by norm_num
    generalize (1 : ℝ) / (2 ^ 51 - 1) = δ at *
    have h5 : δ * |f k| ≤ δ * (|f 0| + |f k - f 0|) := mul_le_mul_of_nonneg_left h3 hδ
    have h6 : δ * |f k - f 0| ≤ δ * (((1 + δ) ^ k - 1) * (|f 0| + μ)) :=
      mul_le_mul_of_nonneg_left h1 hδ
    rw [pow_succ]
    linear_combination h4 + h2 + h5 + h6 + h1

/-- C71, how far transitivity fails: along `k` comparisons every component keeps its value up to a
relative (1 + 1/(2^51 - 1))^k - 1 (and a tiny absolute term), and the yaw is kept exactly. -/
theorem C71_chain_partial (k : ℕ) (f : ℕ → CtrvState) (g : ℕ → CtraState)
    (hf : ∀ i < k, (f i).eq (f (i + 1))) (hg : ∀ i < k, (g i).eq (g (i + 1))) :
    ((f k).yaw = (f 0).yaw ∧ ∀ i, |(f k).toVec i - (f 0).toVec i| ≤
      ((1 + 1 / (2 ^ 51 - 1)) ^ k - 1) * (|(f 0).toVec i| + (2 ^ 51 - 1) / 2 ^ 1022)) ∧
    ((g k).yaw = (g 0).yaw ∧ ∀ i, |(g k).toVec i - (g 0).toVec i| ≤
      ((1 + 1 / (2 ^ 51 - 1)) ^ k - 1) * (|(g 0).toVec i| + (2 ^ 51 - 1) / 2 ^ 1022)) := by
  have yf : ∀ i < k, (f i).yaw = (f (i + 1)).yaw := fun i hi => Angle.ext (hf i hi).2.2.2.1
  have yg : ∀ i < k, (g i).yaw = (g (i + 1)).yaw := fun i hi => Angle.ext (hg i hi).2.2.2.1
  have keep : ∀ h : ℕ → Angle, (∀ i < k, h i = h (i + 1)) → h k = h 0 := by
    intro h hh
    have : ∀ j ≤ k, h j = h 0 := by
      intro j
      induction j with
      | zero => exact fun _ => rfl
      | succ j ih => exact fun hj => (hh j (by omega)).symm.trans (ih (by omega))
    exact this k le_rfl
  refine ⟨⟨keep (fun i => (f i).yaw) yf, fun i => ?_⟩, ⟨keep (fun i => (g i).yaw) yg, fun i => ?_⟩⟩
  · refine chain_of_unitsEq (f := fun j => (f j).toVec i) fun j hj => ?_
    obtain ⟨h0, h1, h2, h3, h4⟩ := hf j hj
    fin_cases i
    exacts [h0, h1, h2, (show unitsEq (f j).yaw.getAngle (f (j + 1)).yaw.getAngle from
      yf j hj ▸ unitsEq_refl _), h4]
  · refine chain_of_unitsEq (f := fun j => (g j).toVec i) fun j hj => ?_
    obtain ⟨h0, h1, h2, h3, h4, h5⟩ := hg j hj
    fin_cases i
    exacts [h0, h1, h2, (show unitsEq (g j).yaw.getAngle (g (j + 1)).yaw.getAngle from
      yg j hj ▸ unitsEq_refl _), h4, h5]

private theorem small_steps (l : List (ℝ × ℝ)) : ∃ k : ℕ, 0 < k ∧
    ∀ p ∈ l, ∀ i : ℕ, unitsEq (p.1 + (i : ℝ) / k * (p.2 - p.1)) (p.1 + ((i + 1 : ℕ) : ℝ) / k * (p.2 - p.1)) := by
  obtain ⟨k, hk⟩ := exists_nat_gt ((l.map fun p => |p.2 - p.1|).sum / dblMin)
  refine ⟨k + 1, Nat.succ_pos _, fun p hp i => Or.inr ?_⟩
  have hk0 : (0 : ℝ) < ((k + 1 : ℕ) : ℝ) := by positivity
  have hle : |p.2 - p.1| ≤ (l.map fun p => |p.2 - p.1|).sum :=
    List.single_le_sum (by simp only [List.mem_map]; rintro _ ⟨q, _, rfl⟩; exact abs_nonneg _) _
      (List.mem_map_of_mem hp)
  rw [show p.1 + (i : ℝ) / (k + 1 : ℕ) * (p.2 - p.1) - (p.1 + ((i + 1 : ℕ) : ℝ) / (k + 1 : ℕ) * (p.2 - p.1)) =
    -((p.2 - p.1) / (k + 1 : ℕ)) by push_cast; ring, abs_neg, abs_div, abs_of_pos hk0, div_lt_iff₀ hk0]
  rw [div_lt_iff₀ dblMin_pos] at hk
  have : (k : ℝ) ≤ ((k + 1 : ℕ) : ℝ) := by push_cast; linarith
  have := mul_le_mul_of_nonneg_right this dblMin_pos.le
  linarith

/-- C71, exactly how far transitivity fails: two states are linked by a chain of comparisons
exactly if they have the same yaw, however different their other components are. -/
theorem C71_linked (s t : CtrvState) (s' t' : CtraState) :
    ((∃ (k : ℕ) (f : ℕ → CtrvState), f 0 = s ∧ f k = t ∧ ∀ i < k, (f i).eq (f (i + 1))) ↔
      s.yaw = t.yaw) ∧
    ((∃ (k : ℕ) (g : ℕ → CtraState), g 0 = s' ∧ g k = t' ∧ ∀ i < k, (g i).eq (g (i + 1))) ↔
      s'.yaw = t'.yaw) := by
  refine ⟨⟨?_, fun h => ?_⟩, ⟨?_, fun h => ?_⟩⟩
  · rintro ⟨k, f, rfl, rfl, hf⟩
    exact (C71_chain_partial k f (fun _ => s') hf fun _ _ => (C71_eq_partial (f 0) (f 0) s' s').2.2.1).1.1.symm
  · obtain ⟨k, hk, hs⟩ := small_steps [(s.x, t.x), (s.y, t.y), (s.v, t.v), (s.yawRate, t.yawRate)]
    have hk' : (k : ℝ) ≠ 0 := by exact_mod_cast hk.ne'
    refine ⟨k, fun i => ⟨s.x + (i : ℝ) / k * (t.x - s.x), s.y + (i : ℝ) / k * (t.y - s.y),
      s.v + (i : ℝ) / k * (t.v - s.v), s.yaw, s.yawRate + (i : ℝ) / k * (t.yawRate - s.yawRate)⟩,
      ?_, ?_, fun i _ => ⟨hs (s.x, t.x) (by simp) i, hs (s.y, t.y) (by simp) i,
        hs (s.v, t.v) (by simp) i, rfl, hs (s.yawRate, t.yawRate) (by simp) i⟩⟩
    · simp
    · simp only [div_self hk', one_mul, add_sub_cancel, h]
  · rintro ⟨k, g, rfl, rfl, hg⟩
    exact (C71_chain_partial k (fun _ => s) g (fun _ _ => (C71_eq_partial s s (g 0) (g 0)).1) hg).2.1.symm
  · obtain ⟨k, hk, hs⟩ := small_steps [(s'.x, t'.x), (s'.y, t'.y), (s'.v, t'.v),
      (s'.yawRate, t'.yawRate), (s'.a, t'.a)]
    have hk' : (k : ℝ) ≠ 0 := by exact_mod_cast hk.ne'
    refine ⟨k, fun i => ⟨s'.x + (i : ℝ) / k * (t'.x - s'.x), s'.y + (i : ℝ) / k * (t'.y - s'.y),
      s'.v + (i : ℝ) / k * (t'.v - s'.v), s'.yaw, s'.yawRate + (i : ℝ) / k * (t'.yawRate - s'.yawRate),
      s'.a + (i : ℝ) / k * (t'.a - s'.a)⟩,
      ?_, ?_, fun i _ => ⟨hs (s'.x, t'.x) (by simp) i, hs (s'.y, t'.y) (by simp) i,
        hs (s'.v, t'.v) (by simp) i, rfl, hs (s'.yawRate, t'.yawRate) (by simp) i,
        hs (s'.a, t'.a) (by simp) i⟩⟩
    · simp
    · simp only [div_self hk', one_mul, add_sub_cancel, h]

/-- a state at the origin and one a kilometre away are linked -/
example : ∃ (k : ℕ) (f : ℕ → CtrvState), f 0 = ⟨0, 0, 5, Angle.ofRad 1, 0⟩ ∧
    f k = ⟨1000, 0, 5, Angle.ofRad 1, 0⟩ ∧ ∀ i < k, (f i).eq (f (i + 1)) :=
  (C71_linked _ _ ⟨0, 0, 0, Angle.ofRad 1, 0, 0⟩ ⟨0, 0, 0, Angle.ofRad 1, 0, 0⟩).1.2 rfl

end Mot.Props
