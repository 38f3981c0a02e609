import Verif.Proofs.FloatRound
/-!
# Rounding to decimal places as it is computed (C87)
-/

namespace Mot.Props

open Mot Spec

/-- C87: the `float` overload maps `float`s to `float`s and is idempotent, for every number up to
the largest `float` and every number of decimal places up to 22. -/
theorem C87_float_idempotent (x : ℚ) (hx : IsFloat x) (d : ℕ) (hd : d ≤ 22) :
    ∃ y, IsFloat y ∧ roundDec32 (.fin x) d = .fin y ∧ roundDec32 (.fin y) d = .fin y := by
  obtain ⟨h1, h2⟩ := dec32_fin hx hd
  refine ⟨_, h2, h1, ?_⟩
  rcases dec_again hx hd h2 with h | h
  · rw [h] at h1 ⊢
    exact h1
  · rw [(dec32_fin h2 hd).1]
    congr 2
    show binary64.round (decInt _ d / 10 ^ d) = binary64.round (decInt x d / 10 ^ d)
    rw [h]

/-- C87: the result differs from the number by at most a little more than half a unit of the last
decimal place plus the resolution of `float`. -/
theorem C87_float_accuracy (x : ℚ) (hx : IsFloat x) (d : ℕ) (hd : d ≤ 22) :
    ∃ y, roundDec32 (.fin x) d = .fin y ∧
      |y - x| ≤ (1 / 2 + 1 / 2 ^ 20) / 10 ^ d + |x| / 2 ^ 23 := by
  refine ⟨_, (dec32_fin hx hd).1, ?_⟩
  obtain ⟨m1, m2⟩ := pow10_range hd
  have hm : (0 : ℚ) < 10 ^ d := by positivity
  have h1 := decQuot_near hd x
  have h2 := b32_std (decQuot x d)
  have h3 := abs_add_le (binary32.round (decQuot x d) - decQuot x d) (decQuot x d - x)
  rw [sub_add_sub_cancel] at h3
  have h4 := abs_add_le (decQuot x d - x) x
  rw [sub_add_cancel] at h4
  have h5 : |decQuot x d - x| ≤ (1 / 2 + 1 / 2 ^ 50) / 10 ^ d + |x| / 2 ^ 51 := by
    rw [← sub_mul, abs_mul, abs_mul, abs_of_pos hm] at h1
    refine le_of_mul_le_mul_right (h1.trans (le_of_eq ?_)) hm
    field_simp
    ring
  have h6 : (1 : ℚ) / 2 ^ 150 ≤ 1 / 2 ^ 70 / 10 ^ d := by
    rw [le_div_iff₀ hm]
    refine (mul_le_mul_of_nonneg_left m2 (by positivity)).trans ?_
    norm_num
  have e1 : ∀ c : ℚ, c / 10 ^ d = c * (1 / 10 ^ d) := fun c => by ring
  rw [e1] at h5 h6 ⊢
  have hr : 0 ≤ (1 : ℚ) / 10 ^ d := by positivity
  generalize (1 : ℚ) / 10 ^ d = r at *
  clear h1
  generalize |decQuot x d - x| = A at *
  generalize |decQuot x d| = B at *
  generalize |binary32.round (decQuot x d) - decQuot x d| = C at *
  have := abs_nonneg x
  generalize |x| = X at *
  clear hm m2
  norm_num at h2 h5 h6 ⊢
  linarith

/-- C87: rounding preserves order and commutes with a change of sign. -/
theorem C87_float_order (x y : ℚ) (hx : IsFloat x) (hy : IsFloat y) (h : x ≤ y) (d : ℕ)
    (hd : d ≤ 22) :
    ∃ x' y', roundDec32 (.fin x) d = .fin x' ∧ roundDec32 (.fin y) d = .fin y' ∧ x' ≤ y' ∧
      roundDec32 (.fin (-x)) d = .fin (-x') := by
  have hn : IsFloat (-x) := by
    obtain ⟨m, e, ⟨h1, h2, h3⟩, rfl, h4⟩ := hx
    refine ⟨-m, e, ⟨by rwa [abs_neg], h2, by rwa [abs_neg]⟩, by push_cast; ring, by rwa [abs_neg]⟩
  refine ⟨_, _, (dec32_fin hx hd).1, (dec32_fin hy hd).1,
    binary32.round_mono_all (by decide) (decQuot_mono h d), ?_⟩
  rw [(dec32_fin hn hd).1, decQuot_neg, binary32.round_neg]

/-- 1.2345 as a `float` -/
theorem isFloat_sample : IsFloat (10355737 / 8388608) :=
  ⟨10355737, -23, by unfold Canonical; decide, by norm_num, by norm_num⟩

/-- the hypotheses are met: 1.2345 is rounded to the `float` nearest to 1.23 -/
example : IsFloat (10355737 / 8388608) ∧
    roundDec32 (.fin (10355737 / 8388608)) 2 = .fin (10317988 / 8388608) :=
  ⟨isFloat_sample, by decide +kernel⟩

/-- C87: in `double` (states, process noise) rounding is idempotent for numbers below 2⁵¹ units of
the last decimal place, and accurate. -/
theorem C87_double_idempotent (x : ℚ) (d : ℕ) (hd : d ≤ 22) (hx : |x| * 10 ^ d ≤ 2 ^ 51 - 1) :
    ∃ y, roundDec64 (.fin x) d = .fin y ∧ roundDec64 (.fin y) d = .fin y ∧
      |y - x| ≤ (1 / 2 + 1 / 2 ^ 50) / 10 ^ d + |x| / 2 ^ 51 := by
  have hm : (0 : ℚ) < 10 ^ d := by positivity
  have hx' : |x * 10 ^ d| ≤ 2 ^ 51 - 1 := by rwa [abs_mul, abs_of_pos hm]
  have h1 := dec64_fin hd (hx'.trans (by norm_num))
  have h2 := decQuot_near hd x
  have h3 : |decQuot x d * 10 ^ d| ≤ 2 ^ 203 := by
    have h4 := abs_add_le (decQuot x d * 10 ^ d - x * 10 ^ d) (x * 10 ^ d)
    rw [sub_add_cancel] at h4
    norm_num at *
    linarith
  refine ⟨_, h1, ?_, ?_⟩
  · rw [dec64_fin hd h3]
    congr 1
    show binary64.round (decInt _ d / 10 ^ d) = binary64.round (decInt x d / 10 ^ d)
    rw [dec64_again hd hx']
  · rw [← sub_mul, abs_mul, abs_mul, abs_of_pos hm] at h2
    refine le_of_mul_le_mul_right (h2.trans (le_of_eq ?_)) hm
    field_simp
    ring

example : |(355 / 113 : ℚ)| * 10 ^ 3 ≤ 2 ^ 51 - 1 ∧
    roundDec64 (.fin (355 / 113)) 3 = .fin (7075155014599049 / 2251799813685248) := by
  refine ⟨by norm_num, by decide +kernel⟩

/-- C87: beyond that it is not idempotent: 35762506278073.336 is rounded to 35762506278073.34 and
that to 35762506278073.35. -/
theorem C87_double_not_idempotent :
    roundDec64 (.fin (4577600803593387 / 128)) 2 = .fin (1144400200898347 / 32) ∧
    roundDec64 (.fin (1144400200898347 / 32)) 2 = .fin (4577600803593389 / 128) := by
  decide +kernel

set_option exponentiation.threshold 1000 in
/-- C87: NaN stays NaN; infinities stay what they are up to 22 decimal places; from 309 decimal
places on the result is always NaN. -/
theorem C87_special (d : ℕ) :
    roundDec32 .nan d = .nan ∧ roundDec64 .nan d = .nan ∧
    (d ≤ 22 → ∀ s, roundDec32 (.inf s) d = .inf s ∧ roundDec64 (.inf s) d = .inf s) ∧
    (309 ≤ d → ∀ n, roundDec32 n d = .nan ∧ roundDec64 n d = .nan) := by
  have hnan : ∀ a, FP.div binary64 .nan a = .nan := by intro a; cases a <;> rfl
  have h64 : roundDec64 .nan d = .nan := by
    unfold roundDec64
    have : FP.mul binary64 .nan (multiplier d) = .nan := by cases multiplier d <;> rfl
    rw [this]
    exact hnan _
  refine ⟨by unfold roundDec32; rw [h64]; rfl, h64, ?_, ?_⟩
  · intro hd s
    have hm : (0 : ℚ) < 10 ^ d := by positivity
    have : roundDec64 (.inf s) d = .inf s := by
      unfold roundDec64
      rw [multiplier_eq hd]
      have e : FP.mul binary64 (.inf s) (.fin (10 ^ d)) = .inf s := by
        show (if (10 : ℚ) ^ d = 0 then FP.nan else FP.inf (s != decide ((10 : ℚ) ^ d < 0))) = _
        rw [if_neg hm.ne', decide_eq_false (not_lt.2 hm.le)]
        simp
      rw [e]
      show FP.inf (s != decide ((10 : ℚ) ^ d < 0)) = _
      rw [decide_eq_false (not_lt.2 hm.le)]
      simp
    exact ⟨by unfold roundDec32; rw [this]; rfl, this⟩
  · intro hd n
    have hm : multiplier d = .inf false := by
      have hov := binary64.overflow_iff (by decide) (by decide) (by decide +kernel) (by decide)
        (10 ^ d)
      have hpos : (0 : ℚ) < 10 ^ d := by positivity
      have hbig : (2 ^ 54 - 1) * (2 : ℚ) ^ ((970 : ℕ) : ℤ) ≤ 10 ^ d := by
        have h1 : (2 ^ 54 - 1) * 2 ^ 970 ≤ 10 ^ 309 := by decide +kernel
        have h2 : (((2 ^ 54 - 1) * 2 ^ 970 : ℕ) : ℚ) ≤ ((10 ^ 309 : ℕ) : ℚ) := Nat.cast_le.2 h1
        rw [zpow_natCast]
        refine le_trans (le_of_eq ?_) (h2.trans ?_)
        · rw [Nat.cast_mul, Nat.cast_sub (by norm_num)]; push_cast; ring
        · rw [Nat.cast_pow]
          exact pow_le_pow_right₀ (by norm_num) hd
      unfold multiplier FP.ofRat
      rw [if_neg, decide_eq_false (not_lt.2 hpos.le)]
      intro h
      have := hov.1 h
      rw [abs_of_pos hpos] at this
      exact absurd this (not_lt.2 hbig)
    have : roundDec64 n d = .nan := by
      unfold roundDec64
      rw [hm]
      cases n with
      | nan => rfl
      | inf s => rfl
      | fin q =>
        by_cases hq : q = 0
        · show FP.div binary64 (FP.roundInt (if q = 0 then FP.nan else _)) _ = _
          rw [if_pos hq]; rfl
        · show FP.div binary64 (FP.roundInt (if q = 0 then FP.nan else _)) _ = _
          rw [if_neg hq]; rfl
    exact ⟨by unfold roundDec32; rw [this]; rfl, this⟩

end Mot.Props
