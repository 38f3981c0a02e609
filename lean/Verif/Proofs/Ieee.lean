import Verif.Proofs.Float
import Verif.Spec.Ieee
/-! # The rounding function of the model is rounding to nearest, ties to even -/

namespace Mot

open Spec

theorem roundHalfEven_nearest (y : ℚ) (k : ℤ) :
    |(roundHalfEven y : ℚ) - y| ≤ |(k : ℚ) - y| ∧
    (|(roundHalfEven y : ℚ) - y| = |(k : ℚ) - y| → k ≠ roundHalfEven y → Even (roundHalfEven y)) := by
  have h1 := Int.floor_le y
  have h2 := Int.lt_floor_add_one y
  have hk : k ≤ ⌊y⌋ ∨ ⌊y⌋ + 1 ≤ k := by omega
  have hk' : (k : ℚ) ≤ ⌊y⌋ ∨ (⌊y⌋ : ℚ) + 1 ≤ k := by
    rcases hk with h | h
    · left; exact_mod_cast h
    · right; exact_mod_cast h
  have hkd : |(k : ℚ) - y| = if (k : ℚ) ≤ ⌊y⌋ then y - k else k - y := by
    rcases hk' with h | h
    · rw [if_pos h, abs_of_nonpos (by linarith)]; ring
    · rw [if_neg (by linarith), abs_of_nonneg (by linarith)]
  have hfl : |((⌊y⌋ : ℤ) : ℚ) - y| = y - ⌊y⌋ := by rw [abs_of_nonpos (by linarith)]; ring
  have hce : |(((⌊y⌋ + 1 : ℤ)) : ℚ) - y| = ⌊y⌋ + 1 - y := by
    push_cast; rw [abs_of_nonneg (by linarith)]
  rw [hkd]
  unfold roundHalfEven
  by_cases c1 : y - ⌊y⌋ < 1 / 2
  · simp only [if_pos c1, hfl]
    constructor
    · split <;> rcases hk' with h | h <;> linarith
    · intro h hne
      exfalso
      split at h
      · apply hne; exact_mod_cast (by linarith : (k : ℚ) = ⌊y⌋)
      · rcases hk' with h' | h' <;> linarith
  · rw [if_neg c1]
    by_cases c2 : 1 / 2 < y - ⌊y⌋
    · simp only [if_pos c2, hce]
      constructor
      · split <;> rcases hk' with h | h <;> linarith
      · intro h hne
        exfalso
        split at h
        · rcases hk' with h' | h' <;> linarith
        · apply hne; exact_mod_cast (by linarith : (k : ℚ) = ⌊y⌋ + 1)
    · rw [if_neg c2]
      by_cases c3 : ⌊y⌋ % 2 = 0
      · simp only [if_pos c3, hfl]
        constructor
        · split <;> rcases hk' with h | h <;> linarith
        · intro _ _; exact Int.even_iff.2 c3
      · simp only [if_neg c3, hce]
        constructor
        · split <;> rcases hk' with h | h <;> linarith
        · intro _ _; rw [Int.even_iff]; omega

namespace Fmt

theorem two_zpow_log_le {x : ℚ} (hx : x ≠ 0) : (2 : ℚ) ^ (Int.log 2 |x|) ≤ |x| := by
  have := Int.zpow_log_le_self (b := 2) (r := |x|) (by norm_num) (abs_pos.2 hx)
  rwa [Nat.cast_ofNat] at this

theorem lt_two_zpow_log {x : ℚ} : |x| < (2 : ℚ) ^ (Int.log 2 |x| + 1) := by
  have := Int.lt_zpow_succ_log_self (b := 2) (by norm_num) |x|
  rwa [Nat.cast_ofNat] at this

/-- significand of the rounded number, before normalisation -/
def sig (f : Fmt) (x : ℚ) : ℤ := roundHalfEven (x / (2 : ℚ) ^ f.ulpExp x)

theorem round_eq_sig (f : Fmt) (x : ℚ) : f.round x = f.sig x * (2 : ℚ) ^ f.ulpExp x := rfl

theorem round_nearest_grid (f : Fmt) (x : ℚ) (k : ℤ) :
    |f.round x - x| ≤ |k * (2 : ℚ) ^ f.ulpExp x - x| ∧
    (|f.round x - x| = |k * (2 : ℚ) ^ f.ulpExp x - x| → k * (2 : ℚ) ^ f.ulpExp x ≠ f.round x →
      Even (f.sig x)) := by
  have hp := two_zpow_pos (f.ulpExp x)
  obtain ⟨h1, h2⟩ := roundHalfEven_nearest (x / 2 ^ f.ulpExp x) k
  have e : ∀ z : ℤ, |(z : ℚ) * (2 : ℚ) ^ f.ulpExp x - x|
      = |(z : ℚ) - x / 2 ^ f.ulpExp x| * (2 : ℚ) ^ f.ulpExp x := by
    intro z
    rw [← abs_of_pos hp, ← abs_mul, abs_of_pos hp]
    congr 1
    field_simp
  rw [round_eq_sig, e, e]
  constructor
  · exact mul_le_mul_of_nonneg_right h1 hp.le
  · intro h hne
    refine h2 (mul_right_cancel₀ hp.ne' h) ?_
    rintro rfl
    exact hne rfl

theorem sig_bounds (f : Fmt) (hf : 1 ≤ f.prec) {x : ℚ} (hx : x ≠ 0) :
    |f.sig x| ≤ 2 ^ f.prec ∧ (2 ^ (f.prec - 1) ≤ |f.sig x| ∨ f.ulpExp x = f.emin) := by
  have hp := two_zpow_pos (f.ulpExp x)
  have hlt := lt_two_zpow_log (x := x)
  have hle := two_zpow_log_le hx
  have hu : Int.log 2 |x| + 1 ≤ f.ulpExp x + f.prec := by
    have : Int.log 2 |x| - (f.prec - 1) ≤ f.ulpExp x := le_max_left _ _
    omega
  have hlt' : |x| < (2 : ℚ) ^ f.prec * (2 : ℚ) ^ f.ulpExp x := by
    refine hlt.trans_le ((zpow_le_zpow_right₀ (by norm_num) hu).trans (le_of_eq ?_))
    rw [zpow_add₀ (by norm_num), zpow_natCast, mul_comm]
  have hb := abs_lt.1 hlt'
  constructor
  · rw [abs_le]
    constructor
    · apply le_roundHalfEven_of_int_le
      rw [le_div_iff₀ hp]; push_cast; linarith [hb.1]
    · apply roundHalfEven_le_of_le_int
      rw [div_le_iff₀ hp]; push_cast; linarith [hb.2]
  · by_cases hm : f.ulpExp x = f.emin
    · exact .inr hm
    · left
      have hu2 : f.ulpExp x = Int.log 2 |x| - (f.prec - 1) := by
        have : f.ulpExp x = max (Int.log 2 |x| - (f.prec - 1)) f.emin := rfl
        omega
      have hL : (2 : ℚ) ^ (f.prec - 1) * (2 : ℚ) ^ f.ulpExp x ≤ |x| := by
        refine le_trans (le_of_eq ?_) hle
        rw [← zpow_natCast, ← zpow_add₀ (by norm_num)]
        congr 1
        push_cast [hf]
        omega
      rcases abs_cases x with ⟨ha, _⟩ | ⟨ha, _⟩
      · rw [ha] at hL
        refine le_trans ?_ (le_abs_self _)
        apply le_roundHalfEven_of_int_le
        rw [le_div_iff₀ hp]; push_cast; exact hL
      · rw [ha] at hL
        refine le_trans ?_ (neg_le_abs _)
        have : f.sig x ≤ -2 ^ (f.prec - 1) := by
          apply roundHalfEven_le_of_le_int
          rw [div_le_iff₀ hp]; push_cast; linarith
        linarith

/-- `round` is rounding to nearest, ties to even -/
theorem round_nearestEven (f : Fmt) (hf : 2 ≤ f.prec) (x : ℚ) :
    NearestEven f.prec f.emin x (f.round x) := by
  by_cases hx : x = 0
  · subst hx
    rw [round_zero]
    refine ⟨0, f.emin, ⟨by simp, le_rfl, .inr rfl⟩, by simp, fun m' e' _ => ⟨?_, fun _ _ => Even.zero⟩⟩
    rw [sub_self, abs_zero]
    exact abs_nonneg _
  have hp := two_zpow_pos (f.ulpExp x)
  have hmin : f.emin ≤ f.ulpExp x := le_max_right _ _
  obtain ⟨hb1, hb2⟩ := f.sig_bounds (by omega) hx
  -- nearest among all floating-point numbers
  have near : ∀ m' e' : ℤ, Canonical f.prec f.emin m' e' →
      |f.round x - x| ≤ |m' * (2 : ℚ) ^ e' - x| ∧
      (|f.round x - x| = |m' * (2 : ℚ) ^ e' - x| → m' * (2 : ℚ) ^ e' ≠ f.round x →
        Even (f.sig x)) := by
    rintro m' e' ⟨hm', he', -⟩
    by_cases hj : f.ulpExp x ≤ e'
    · obtain ⟨n, hn⟩ := zpow_of_nonneg (k := e' - f.ulpExp x) (by omega)
      have : (m' : ℚ) * (2 : ℚ) ^ e' = ((m' * n : ℤ) : ℚ) * (2 : ℚ) ^ f.ulpExp x := by
        push_cast
        rw [← hn, mul_assoc, ← zpow_add₀ (by norm_num)]
        congr 2; omega
      rw [this]
      exact f.round_nearest_grid x _
    · have hu2 : f.ulpExp x = Int.log 2 |x| - (f.prec - 1) := by
        have : f.ulpExp x = max (Int.log 2 |x| - (f.prec - 1)) f.emin := rfl
        omega
      have hle := two_zpow_log_le hx
      have hr : |(m' : ℚ) * (2 : ℚ) ^ e'| < (2 : ℚ) ^ (Int.log 2 |x|) := by
        rw [abs_mul, abs_of_pos (two_zpow_pos e')]
        have h1 : |(m' : ℚ)| < 2 ^ f.prec := by exact_mod_cast hm'
        calc |(m' : ℚ)| * (2 : ℚ) ^ e' < 2 ^ f.prec * (2 : ℚ) ^ e' :=
              mul_lt_mul_of_pos_right h1 (two_zpow_pos e')
          _ = (2 : ℚ) ^ (f.prec + e' : ℤ) := by rw [zpow_add₀ (by norm_num), zpow_natCast]
          _ ≤ _ := zpow_le_zpow_right₀ (by norm_num) (by omega)
      have hgrid : ∀ s : ℤ, (s * (2 : ℚ) ^ (Int.log 2 |x|)) =
          ((s * 2 ^ (f.prec - 1) : ℤ) : ℚ) * (2 : ℚ) ^ f.ulpExp x := by
        intro s
        push_cast
        rw [mul_assoc, ← zpow_natCast, ← zpow_add₀ (by norm_num)]
        congr 2
        push_cast [show 1 ≤ f.prec by omega]
        omega
      have hstrict : |f.round x - x| < |(m' : ℚ) * (2 : ℚ) ^ e' - x| := by
        obtain ⟨r1, r2⟩ := abs_lt.1 hr
        have g1 := (f.round_nearest_grid x (1 * 2 ^ (f.prec - 1))).1
        rw [← hgrid 1] at g1
        have g2 := (f.round_nearest_grid x (-1 * 2 ^ (f.prec - 1))).1
        rw [← hgrid (-1)] at g2
        generalize (2 : ℚ) ^ (Int.log 2 |x|) = A at *
        push_cast at g1 g2
        rcases abs_cases x with ⟨ha, h0⟩ | ⟨ha, h0⟩
        · rw [ha] at hle
          refine lt_of_le_of_lt g1 ?_
          rw [abs_of_nonpos (by linarith), abs_of_neg (by linarith)]
          linarith
        · rw [ha] at hle
          refine lt_of_le_of_lt g2 ?_
          rw [abs_of_nonneg (by linarith), abs_of_pos (by linarith)]
          linarith
      exact ⟨hstrict.le, fun h => absurd h hstrict.ne⟩
  rcases hb1.lt_or_eq with hlt | heq
  · exact ⟨f.sig x, f.ulpExp x, ⟨hlt, hmin, hb2⟩, f.round_eq_sig x, near⟩
  · -- rounded up to a power of two
    have hpow : (2 : ℤ) ^ f.prec = 2 * 2 ^ (f.prec - 1) := by
      rw [← pow_succ']; congr 1; omega
    have h2 : (2 : ℤ) ^ (f.prec - 1) = 2 * 2 ^ (f.prec - 2) := by
      rw [← pow_succ']; congr 1; omega
    have hpos : (0 : ℤ) < 2 ^ (f.prec - 1) := by positivity
    obtain ⟨s, hs, hsig⟩ : ∃ s : ℤ, |s| = 1 ∧ f.sig x = 2 * (s * 2 ^ (f.prec - 1)) := by
      rcases abs_cases (f.sig x) with ⟨h, _⟩ | ⟨h, _⟩
      · exact ⟨1, by simp, by rw [← h, heq, hpow]; ring⟩
      · exact ⟨-1, by simp, by
          have : f.sig x = - 2 ^ f.prec := by linarith
          rw [this, hpow]; ring⟩
    refine ⟨s * 2 ^ (f.prec - 1), f.ulpExp x + 1, ⟨?_, by omega, .inl ?_⟩, ?_, fun m' e' h => ?_⟩
    · rw [abs_mul, hs, one_mul, abs_of_pos hpos, hpow]; linarith
    · rw [abs_mul, hs, one_mul, abs_of_pos hpos]
    · rw [round_eq_sig, hsig, zpow_add₀ (by norm_num)]; push_cast; ring
    · refine ⟨(near m' e' h).1, fun _ _ => ?_⟩
      rw [h2]
      exact ⟨s * 2 ^ (f.prec - 2), by ring⟩

theorem _root_.Mot.roundHalfEven_neg (y : ℚ) : roundHalfEven (-y) = -roundHalfEven y := by
  by_cases h : y = ⌊y⌋
  · rw [h, ← Int.cast_neg, roundHalfEven_intCast, roundHalfEven_intCast]
  · have h1 := Int.floor_le y
    have h2 := Int.lt_floor_add_one y
    have h3 : (⌊y⌋ : ℚ) < y := lt_of_le_of_ne h1 (Ne.symm h)
    have hf : ⌊-y⌋ = -⌊y⌋ - 1 := by
      rw [Int.floor_eq_iff]; push_cast; constructor <;> linarith
    unfold roundHalfEven
    rw [hf]
    push_cast
    split_ifs <;> first | omega | (exfalso; linarith)

theorem round_neg (f : Fmt) (x : ℚ) : f.round (-x) = -f.round x := by
  unfold round ulpExp
  rw [abs_neg, neg_div, roundHalfEven_neg]
  push_cast
  ring

theorem abs_round (f : Fmt) (x : ℚ) : |f.round x| = f.round |x| := by
  rcases abs_cases x with ⟨h, h0⟩ | ⟨h, h0⟩
  · rw [h, abs_of_nonneg (f.round_nonneg h0)]
  · rw [h, round_neg, ← abs_neg, abs_of_nonneg]
    rw [← round_neg]; exact f.round_nonneg (by linarith)

/-- overflow occurs from the number half way between the largest finite number and the next
power of two -/
theorem overflow_iff (f : Fmt) (hf : 1 ≤ f.prec) (he : f.emin ≤ f.emax - f.prec)
    (hmid : f.round ((2 ^ (f.prec + 1) - 1) * (2 : ℚ) ^ (f.emax - f.prec - 1)) = (2 : ℚ) ^ f.emax)
    (hf2 : 2 ≤ f.prec) (x : ℚ) :
    |f.round x| < (2 : ℚ) ^ f.emax ↔
      |x| < (2 ^ (f.prec + 1) - 1) * (2 : ℚ) ^ (f.emax - f.prec - 1) := by
  rw [abs_round]
  have hA := two_zpow_pos (f.emax - f.prec - 1)
  have hem : (2 : ℚ) ^ f.emax = 2 ^ (f.prec + 1) * (2 : ℚ) ^ (f.emax - f.prec - 1) := by
    rw [← zpow_natCast, ← zpow_add₀ (by norm_num)]; congr 1; push_cast; omega
  constructor
  · intro h
    by_contra hc
    have := f.round_mono hf (by
      have : (1 : ℚ) ≤ 2 ^ (f.prec + 1) := one_le_pow₀ (by norm_num)
      exact mul_nonneg (by linarith) hA.le) (not_lt.1 hc)
    rw [hmid] at this
    linarith
  · intro h
    by_contra hc
    push Not at hc
    obtain ⟨m, e, -, -, hn⟩ := f.round_nearestEven hf2 |x|
    have hcan : Canonical f.prec f.emin (2 ^ f.prec - 1) (f.emax - f.prec) := by
      have h1 : (2 : ℤ) ^ f.prec = 2 * 2 ^ (f.prec - 1) := by rw [← pow_succ']; congr 1; omega
      have h2 : (1 : ℤ) ≤ 2 ^ (f.prec - 1) := one_le_pow₀ (by norm_num)
      refine ⟨?_, he, .inl ?_⟩ <;> rw [abs_of_nonneg (by linarith)] <;> linarith
    have := (hn _ _ hcan).1
    have hM : (((2 ^ f.prec - 1 : ℤ)) : ℚ) * (2 : ℚ) ^ (f.emax - f.prec)
        = (2 ^ (f.prec + 1) - 2) * (2 : ℚ) ^ (f.emax - f.prec - 1) := by
      rw [show f.emax - f.prec = (f.emax - f.prec - 1) + 1 by ring, zpow_add₀ (by norm_num)]
      push_cast
      rw [show f.emax - f.prec - 1 + 1 - 1 = f.emax - f.prec - 1 by ring]
      ring
    rw [hM] at this
    rw [hem] at hc
    generalize (2 : ℚ) ^ (f.emax - f.prec - 1) = A at *
    generalize (2 : ℚ) ^ (f.prec + 1) = B at *
    have e1 : f.round |x| - |x| ≤ |f.round (|x|) - (|x|)| := le_abs_self _
    rcases abs_cases ((B - 2) * A - |x|) with ⟨h', _⟩ | ⟨h', _⟩ <;> nlinarith

end Fmt

end Mot
