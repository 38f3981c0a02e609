import Verif.Model.FloatUt
import Verif.Proofs.FloatCtra
/-!
# Lemmas on the parameters of the unscented transform in floating-point arithmetic
-/

namespace Mot

open Spec

theorem isFloat_nat {n : ℕ} (h : n < 2 ^ 24) : IsFloat n := by
  have h1 : binary32.round n = n := by
    have := binary32.round_exact (m := n) (j := 0) (by
      show |(n : ℤ)| < 2 ^ 24
      rw [abs_of_nonneg (by positivity)]
      exact_mod_cast h) (by decide)
    simpa using this
  have h2 : |binary32.round (n : ℚ)| < 2 ^ 128 := by
    rw [h1, abs_of_nonneg (by positivity)]
    have : (n : ℚ) < 2 ^ 24 := by exact_mod_cast h
    exact this.trans (by norm_num)
  have := isFloat_round h2
  rwa [h1] at this

theorem Spec.IsFloat.neg {x : ℚ} (h : IsFloat x) : IsFloat (-x) := by
  obtain ⟨m, e, ⟨h1, h2, h3⟩, h4, h5⟩ := h
  refine ⟨-m, e, ⟨by rwa [abs_neg], h2, by rwa [abs_neg]⟩, ?_, by rwa [abs_neg]⟩
  rw [h4]
  push_cast
  ring

theorem intF_nat {n : ℕ} (h : n < 2 ^ 24) : intF n = .fin n := by
  have h1 := isFloat_nat h
  have h2 : (n : ℚ) < 2 ^ 24 := by exact_mod_cast h
  unfold intF
  rw [Int.cast_natCast, b32_ofRat (by
    rw [abs_of_nonneg (by positivity)]
    exact h2.le.trans (by norm_num)), h1.round]

/-- distinct `float`s differ by a relative amount, sharp -/
theorem Spec.IsFloat.gap24 {x y : ℚ} (hx : IsFloat x) (hy : IsFloat y) (hne : x ≠ y) :
    |x| / 2 ^ 24 ≤ |x - y| := by
  by_cases h0 : x = 0
  · subst h0; simp
  by_contra hlt
  push Not at hlt
  have hpos : 0 < |x| := abs_pos.2 h0
  have hl := Fmt.two_zpow_log_le h0
  have hu := Fmt.lt_two_zpow_log (x := x)
  generalize Int.log 2 |x| = s at *
  have hxy := abs_sub_abs_le_abs_sub x y
  have key : ∀ k : ℤ, (2 : ℚ) ^ k ≤ |x| → (2 : ℚ) ^ k ≤ |y| → (2 : ℚ) ^ (k - 23) ≤ |x - y| := by
    intro k h1 h2
    obtain ⟨i, hi⟩ := hx.multiple h1
    obtain ⟨j, hj⟩ := hy.multiple h2
    have hij : (1 : ℚ) ≤ |((i - j : ℤ) : ℚ)| := by
      have : i - j ≠ 0 := by
        intro h
        apply hne
        rw [hi, hj, show i = j by omega]
      exact_mod_cast Int.one_le_abs this
    have e : x - y = ((i - j : ℤ) : ℚ) * (2 : ℚ) ^ (k - 23) := by
      rw [hi, hj]; push_cast; ring
    rw [e, abs_mul, abs_of_pos (Fmt.two_zpow_pos _)]
    exact le_mul_of_one_le_left (Fmt.two_zpow_pos _).le hij
  have e1 : (2 : ℚ) ^ (s - 23) = (2 : ℚ) ^ s / 2 ^ 23 := by
    rw [zpow_sub₀ (by norm_num)]; rfl
  have e2 : (2 : ℚ) ^ (s - 1 - 23) = (2 : ℚ) ^ s / 2 ^ 24 := by
    rw [show s - 1 - 23 = s - 24 by ring, zpow_sub₀ (by norm_num)]; rfl
  have e3 : (2 : ℚ) ^ (s + 1) = 2 * (2 : ℚ) ^ s := by
    rw [zpow_add₀ (by norm_num), zpow_one, mul_comm]
  have e4 : (2 : ℚ) ^ (s - 1) = (2 : ℚ) ^ s / 2 := by
    rw [zpow_sub₀ (by norm_num), zpow_one]
  rw [e3] at hu
  rcases hl.eq_or_lt with heq | hgt
  · have h1 := key (s - 1) (by rw [e4]; linarith [Fmt.two_zpow_pos s]) (by
      rw [e4]
      norm_num at hlt
      linarith [Fmt.two_zpow_pos s])
    rw [e2] at h1
    rw [← heq] at hlt
    exact absurd h1 (not_le.2 hlt)
  · obtain ⟨i, hi⟩ := hx.multiple hl
    have hp := Fmt.two_zpow_pos (s - 23)
    have e5 : (2 : ℚ) ^ s = (2 ^ 23 : ℤ) * (2 : ℚ) ^ (s - 23) := by
      rw [e1]; push_cast; field_simp; norm_num
    have h1 : (2 : ℚ) ^ s + (2 : ℚ) ^ (s - 23) ≤ |x| := by
      rw [hi, abs_mul, abs_of_pos hp] at hgt ⊢
      rw [e5] at hgt ⊢
      have h2 := lt_of_mul_lt_mul_right hgt hp.le
      have h3 : (2 ^ 23 : ℤ) + 1 ≤ |i| := by
        have : (2 ^ 23 : ℤ) < |i| := by exact_mod_cast h2
        omega
      have h4 : ((2 ^ 23 : ℤ) : ℚ) + 1 ≤ |(i : ℚ)| := by exact_mod_cast h3
      nlinarith
    have h2 := key s hl (by
      rw [e1] at h1
      norm_num at hlt h1
      linarith [Fmt.two_zpow_pos s])
    rw [e1] at h2
    norm_num at hlt h2
    linarith [Fmt.two_zpow_pos s]

/-- a relatively small number is lost when added -/
theorem Spec.IsFloat.absorb {a d : ℚ} (ha : IsFloat a) (hd : |d| < |a| / 2 ^ 25) :
    FP.ofRat binary32 (a + d) = .fin a := by
  have hb : |a| < 2 ^ 128 := by
    obtain ⟨_, _, -, -, h⟩ := ha
    exact h
  have hr : binary32.round (a + d) = a := by
    by_contra hne
    have h1 := ha.nearest (a + d)
    rw [sub_add_cancel_left, abs_neg] at h1
    have h2 : |a - binary32.round (a + d)| ≤ 2 * |d| := by
      have := abs_sub_le a (a + d) (binary32.round (a + d))
      rw [sub_add_cancel_left, abs_neg, abs_sub_comm (a + d)] at this
      linarith
    -- the rounded number is a float or too large
    by_cases hlt : |binary32.round (a + d)| < 2 ^ 128
    · have h4 := ha.gap24 (isFloat_round hlt) (Ne.symm hne)
      norm_num at *
      linarith
    · have h4 := ha.le_max
      have h5 := abs_sub_abs_le_abs_sub (binary32.round (a + d)) a
      rw [abs_sub_comm] at h5
      have h6 := abs_nonneg a
      push Not at hlt
      norm_num at *
      linarith
  unfold FP.ofRat
  rw [hr, if_pos (by rw [b32_emax]; exact hb)]

theorem b32_pos {x : ℚ} (hx : 0 ≤ x) : 0 ≤ binary32.round x ∧
    binary32.round x ≤ x + x / 2 ^ 24 + 1 / 2 ^ 150 := by
  refine ⟨binary32.round_nonneg hx, ?_⟩
  have h := (abs_le.1 (b32_std x)).2
  rw [abs_of_nonneg hx] at h
  linarith

/-- the product in `generate_lambda` -/
theorem lambda_prod {n : ℕ} (hn : n < 2 ^ 20) {a k : ℚ} (ha : |a| ≤ 2 ^ 50) (hk : |k| ≤ 2 ^ 50)
    (h0 : 0 ≤ n + k) (hP : a * a * (n + k) ≤ 2 ^ 100) :
    ∃ p : ℚ, FP.mul binary32 (FP.mul binary32 (.fin a) (.fin a)) (FP.add binary32 (intF n) (.fin k)) =
      .fin p ∧ 0 ≤ p ∧ p ≤ a * a * (n + k) * (1 + 1 / 2 ^ 20) + 1 / 2 ^ 40 := by
  have hn' : (n : ℚ) ≤ 2 ^ 20 := by exact_mod_cast hn.le
  rw [intF_nat (hn.trans (by norm_num))]
  have haa : a * a ≤ 2 ^ 100 := by
    rw [← abs_mul_abs_self]
    exact (mul_le_mul ha ha (abs_nonneg _) (by norm_num)).trans (by norm_num)
  have haa0 : 0 ≤ a * a := mul_self_nonneg a
  have hS : n + k ≤ 2 ^ 51 := by
    have := le_abs_self k
    norm_num at hk ⊢
    linarith [hn'.trans (show (2 : ℚ) ^ 20 ≤ 1048576 by norm_num)]
  have e1 : FP.mul binary32 (.fin a) (.fin a) = .fin (binary32.round (a * a)) :=
    b32_ofRat (by rw [abs_of_nonneg haa0]; exact haa.trans (by norm_num))
  have e2 : FP.add binary32 (.fin n) (.fin k) = .fin (binary32.round (n + k)) :=
    b32_ofRat (by rw [abs_of_nonneg h0]; exact hS.trans (by norm_num))
  obtain ⟨q0, q1⟩ := b32_pos haa0
  obtain ⟨s0, s1⟩ := b32_pos h0
  -- relative bounds
  have hq : binary32.round (a * a) ≤ a * a * (1 + 1 / 2 ^ 24) + 1 / 2 ^ 150 := by linarith
  have hs : binary32.round (n + k) ≤ (n + k) * (1 + 1 / 2 ^ 24) + 1 / 2 ^ 150 := by linarith
  have hP0 : 0 ≤ a * a * (n + k) := mul_nonneg haa0 h0
  have hqs : binary32.round (a * a) * binary32.round (n + k) ≤
      a * a * (n + k) * (1 + 1 / 2 ^ 22) + 1 / 2 ^ 45 := by
    refine (mul_le_mul hq hs s0 (by positivity)).trans ?_
    have e : (a * a * (1 + 1 / 2 ^ 24) + 1 / 2 ^ 150) * ((n + k) * (1 + 1 / 2 ^ 24) + 1 / 2 ^ 150) =
      a * a * (n + k) * (1 + 1 / 2 ^ 24) ^ 2 + (1 + 1 / 2 ^ 24) / 2 ^ 150 * (a * a) +
        (1 + 1 / 2 ^ 24) / 2 ^ 150 * (n + k) + 1 / 2 ^ 150 * (1 / 2 ^ 150) := by ring
    rw [e]
    clear e hq hs e1 e2 q1 s1
    generalize a * a * (n + k) = P at *
    generalize a * a = A at *
    generalize (n : ℚ) + k = S at *
    clear ha hk
    norm_num at *
    linarith
  have hbig : binary32.round (a * a) * binary32.round (n + k) ≤ 2 ^ 127 := by
    refine hqs.trans ?_
    generalize a * a * (n + k) = P at *
    norm_num at hP ⊢
    linarith
  obtain ⟨p0, p1⟩ := b32_pos (mul_nonneg q0 s0)
  refine ⟨_, ?_, p0, ?_⟩
  · rw [e1, e2]
    exact b32_ofRat (by rw [abs_of_nonneg (mul_nonneg q0 s0)]; exact hbig)
  · refine p1.trans ?_
    generalize binary32.round (a * a) * binary32.round (n + k) = z at *
    generalize a * a * (n + k) = P at *
    norm_num at hqs hP0 ⊢
    linarith

/-- the divisor: rounded sum of `n` and lambda -/
theorem scale_fin {n : ℕ} (hn : n < 2 ^ 20) {L : ℚ} (hL : |L| ≤ 2 ^ 60)
    (hD : 1 / 2 ^ 60 ≤ |n + L|) :
    ∃ d : ℚ, scaleF n (.fin L) = .fin d ∧ |d - (n + L)| ≤ 101 / 100 / 2 ^ 24 * |n + L| := by
  have hn' : (n : ℚ) ≤ 2 ^ 20 := by exact_mod_cast hn.le
  have hb : |(n : ℚ) + L| ≤ 2 ^ 61 := by
    refine (abs_add_le _ _).trans ?_
    rw [abs_of_nonneg (show (0 : ℚ) ≤ n by positivity)]
    have : (2 : ℚ) ^ 20 + 2 ^ 60 ≤ 2 ^ 61 := by norm_num
    linarith
  refine ⟨binary32.round (n + L), ?_, ?_⟩
  · unfold scaleF
    rw [intF_nat (hn.trans (by norm_num))]
    exact b32_ofRat (hb.trans (by norm_num))
  · refine (b32_std _).trans ?_
    generalize |(n : ℚ) + L| = z at *
    norm_num at hD ⊢
    linarith

section
variable {d D : ℚ}

theorem scale_size (hd : |d - D| ≤ 101 / 100 / 2 ^ 24 * |D|) : 999 / 1000 * |D| ≤ |d| := by
  have h := abs_sub_abs_le_abs_sub D d
  rw [abs_sub_comm] at h
  norm_num at *
  linarith [abs_nonneg D]

theorem scale_size' (hd : |d - D| ≤ 101 / 100 / 2 ^ 24 * |D|) : |d| ≤ 1001 / 1000 * |D| := by
  have h := abs_sub_abs_le_abs_sub d D
  norm_num at *
  linarith [abs_nonneg D]

/-- a rounded quotient, multiplied back -/
theorem quot_fin {a : ℚ} (hd : 1 / 2 ^ 61 ≤ |d|) (ha : |a| ≤ 2 ^ 60) :
    FP.div binary32 (.fin a) (.fin d) = .fin (binary32.round (a / d)) ∧
      |binary32.round (a / d) * d - a| ≤ |a| / 2 ^ 24 + |d| / 2 ^ 150 := by
  have hp : 0 < |d| := lt_of_lt_of_le (by norm_num) hd
  have h0 : d ≠ 0 := abs_pos.1 hp
  constructor
  · show (if d = 0 then _ else _) = _
    rw [if_neg h0]
    refine b32_ofRat ?_
    rw [abs_div, div_le_iff₀ hp]
    norm_num at *
    linarith
  · have h := mul_le_mul_of_nonneg_right (b32_std (a / d)) hp.le
    rw [← abs_mul, sub_mul, div_mul_cancel₀ _ h0, abs_div] at h
    refine h.trans (le_of_eq ?_)
    field_simp

end

theorem b64_half {r : ℚ} (hr : |r| ≤ 2 ^ 100) : FP.conv binary32 (FP.mul binary64 (.fin (1 / 2)) (.fin r)) =
    .fin (binary32.round (binary64.round (1 / 2 * r))) := by
  have h1 : |1 / 2 * r| ≤ 2 ^ 100 := by
    rw [abs_mul, abs_of_pos (by norm_num)]
    have := abs_nonneg r
    linarith
  rw [show FP.mul binary64 (.fin (1 / 2)) (.fin r) = .fin (binary64.round (1 / 2 * r)) from
    b64_ofRat (h1.trans (by norm_num))]
  exact b32_ofRat ((abs_b64_le h1 (by norm_num)).trans (by norm_num))

/-- the weight of a sigma point times twice the divisor -/
theorem wi_fin {n : ℕ} {L d : ℚ} (hs : scaleF n (.fin L) = .fin d) (hd : 1 / 2 ^ 61 ≤ |d|)
    (hd' : |d| ≤ 2 ^ 62) :
    ∃ w : ℚ, wiF n (.fin L) = .fin w ∧ |2 * w * d - 1| ≤ 21 / 10 / 2 ^ 24 := by
  obtain ⟨h1, h2⟩ := quot_fin (a := 1) hd (by norm_num)
  rw [abs_one] at h2
  set r := binary32.round (1 / d) with hr
  have hp : 0 < |d| := lt_of_lt_of_le (by norm_num) hd
  have hr1 : |r| * |d| ≤ 1001 / 1000 := by
    rw [← abs_mul]
    have := abs_sub_abs_le_abs_sub (r * d) 1
    rw [abs_one] at this
    norm_num at *
    linarith
  have hr2 : |r| ≤ 2 ^ 100 := by
    have : |r| * (1 / 2 ^ 61) ≤ 1001 / 1000 :=
      (mul_le_mul_of_nonneg_left hd (abs_nonneg r)).trans hr1
    norm_num at *
    linarith
  refine ⟨binary32.round (binary64.round (1 / 2 * r)), ?_, ?_⟩
  · unfold wiF
    rw [hs, h1, b64_half hr2]
  · set z := binary64.round (1 / 2 * r) with hz
    have c1 := b64_std (1 / 2 * r)
    have c2 := b32_std z
    rw [← hz] at c1
    rw [abs_mul, abs_of_pos (show (0 : ℚ) < 1 / 2 by norm_num)] at c1
    have c3 := abs_sub_abs_le_abs_sub z (1 / 2 * r)
    rw [abs_mul, abs_of_pos (show (0 : ℚ) < 1 / 2 by norm_num)] at c3
    have c4 := abs_sub_le (binary32.round z) z (1 / 2 * r)
    have c5 : |binary32.round z - 1 / 2 * r| ≤ 101 / 100 * (|r| / 2) / 2 ^ 24 + 1 / 2 ^ 140 := by
      clear_value r z
      clear h2 hd hd' hr1 hr2 h1 hs hr hz hp
      norm_num at *
      linarith [abs_nonneg r]
    have c6 := mul_le_mul_of_nonneg_right c5 hp.le
    rw [← abs_mul] at c6
    have c7 := abs_add_le (2 * ((binary32.round z - 1 / 2 * r) * d)) (r * d - 1)
    rw [show 2 * ((binary32.round z - 1 / 2 * r) * d) + (r * d - 1) = 2 * binary32.round z * d - 1 by
      ring, abs_mul, abs_two] at c7
    have c8 : (101 / 100 * (|r| / 2) / 2 ^ 24 + 1 / 2 ^ 140) * |d| =
      101 / 200 / 2 ^ 24 * (|r| * |d|) + 1 / 2 ^ 140 * |d| := by ring
    rw [c8] at c6
    clear c1 c2 c3 c4 c5 c8
    clear_value r z
    generalize |r| * |d| = y at *
    norm_num at *
    linarith

/-- both weights against their exact values -/
theorem weights_fin {n : ℕ} (hn : n < 2 ^ 20) {L : ℚ} (hL : |L| ≤ 2 ^ 60)
    (hD : 1 / 2 ^ 60 ≤ |n + L|) :
    ∃ w0 w : ℚ, wm0F n (.fin L) = .fin w0 ∧ wiF n (.fin L) = .fin w ∧
      |w0 - L / (n + L)| ≤ 203 / 100 / 2 ^ 24 * (|L| / |n + L|) + 1 / 2 ^ 149 ∧
      |w - 1 / (2 * (n + L))| ≤ 8 / 5 / 2 ^ 24 * (1 / |n + L|) := by
  obtain ⟨d, hs, hd⟩ := scale_fin hn hL hD
  have d1 := scale_size hd
  have d2 := scale_size' hd
  have hn' : (n : ℚ) ≤ 1048576 := by exact_mod_cast hn.le
  have hn0 : (0 : ℚ) ≤ n := by positivity
  have hDb : |(n : ℚ) + L| ≤ |L| + n := by
    have := abs_add_le (n : ℚ) L
    rwa [abs_of_nonneg hn0, add_comm (n : ℚ) |L|] at this
  have hDp : 0 < |(n : ℚ) + L| := lt_of_lt_of_le (by norm_num) hD
  have hlo : 1 / 2 ^ 61 ≤ |d| := by
    norm_num at hD ⊢
    linarith
  have hhi : |d| ≤ 2 ^ 62 := by
    norm_num at hL ⊢
    linarith
  obtain ⟨q1, q2⟩ := quot_fin hlo hL
  obtain ⟨w, w1, w2⟩ := wi_fin hs hlo hhi
  refine ⟨binary32.round (L / d), w, by unfold wm0F; rw [hs, q1], w1, ?_, ?_⟩
  · set w0 := binary32.round (L / d)
    clear_value w0
    have hD0 : (n : ℚ) + L ≠ 0 := abs_pos.1 hDp
    generalize hDD : (n : ℚ) + L = D at *
    have e : (w0 - L / D) * d = (w0 * d - L) + -(L / D) * (d - D) := by field_simp; ring
    have h1 := abs_add_le (w0 * d - L) (-(L / D) * (d - D))
    rw [← e, abs_mul (w0 - L / D), abs_mul (-(L / D)), abs_neg, abs_div] at h1
    have h2 := mul_le_mul_of_nonneg_left hd (show 0 ≤ |L| / |D| by positivity)
    have h3 : |L| / |D| * (101 / 100 / 2 ^ 24 * |D|) = 101 / 100 / 2 ^ 24 * |L| := by field_simp
    have h4 : |w0 - L / D| * (999 / 1000 * |D|) ≤ 201 / 100 / 2 ^ 24 * |L| + |d| / 2 ^ 150 :=
      (mul_le_mul_of_nonneg_left d1 (abs_nonneg _)).trans (h1.trans (by
        rw [h3] at h2
        linarith))
    have h5 : |w0 - L / D| * (999 / 1000 * |D|) ≤
        201 / 100 / 2 ^ 24 * |L| + 1001 / 1000 * |D| / 2 ^ 150 := h4.trans (by
      have := div_le_div_of_nonneg_right d2 (show (0 : ℚ) ≤ 2 ^ 150 by norm_num)
      linarith)
    rw [← le_div_iff₀ (by positivity)] at h5
    refine h5.trans ?_
    have h6 : (201 / 100 / 2 ^ 24 * |L| + 1001 / 1000 * |D| / 2 ^ 150) / (999 / 1000 * |D|) =
      201 / 100 / 2 ^ 24 * (1000 / 999) * (|L| / |D|) + 1001 / 999 / 2 ^ 150 := by field_simp
    rw [h6]
    have h7 : 0 ≤ |L| / |D| := by positivity
    norm_num
    linarith
  · have hD0 : (n : ℚ) + L ≠ 0 := abs_pos.1 hDp
    generalize hDD : (n : ℚ) + L = D at *
    have e : (w - 1 / (2 * D)) * (2 * d) = (2 * w * d - 1) + -(1 / D) * (d - D) := by field_simp; ring
    have h1 := abs_add_le (2 * w * d - 1) (-(1 / D) * (d - D))
    rw [← e, abs_mul (w - 1 / (2 * D)), abs_mul (-(1 / D)), abs_neg, abs_div, abs_one, abs_mul 2 d,
      abs_two] at h1
    have h2 := mul_le_mul_of_nonneg_left hd (show 0 ≤ 1 / |D| by positivity)
    have h3 : 1 / |D| * (101 / 100 / 2 ^ 24 * |D|) = 101 / 100 / 2 ^ 24 := by field_simp
    rw [h3] at h2
    have h4 : |w - 1 / (2 * D)| * (2 * (999 / 1000 * |D|)) ≤ 311 / 100 / 2 ^ 24 :=
      (mul_le_mul_of_nonneg_left (by linarith) (abs_nonneg _)).trans (h1.trans (by linarith))
    rw [← le_div_iff₀ (by positivity)] at h4
    refine h4.trans ?_
    have h6 : 311 / 100 / 2 ^ 24 / (2 * (999 / 1000 * |D|)) =
      311 / 100 / 2 ^ 24 * (500 / 999) * (1 / |D|) := by field_simp; norm_num
    rw [h6]
    exact mul_le_mul_of_nonneg_right (by norm_num) (by positivity)

/-- the product in `generate_lambda`, both signs -/
theorem lambda_prod_err {n : ℕ} (hn : n < 2 ^ 20) {a k : ℚ} (ha : |a| ≤ 2 ^ 20) (hk : |k| ≤ 2 ^ 20) :
    ∃ p : ℚ, FP.mul binary32 (FP.mul binary32 (.fin a) (.fin a)) (FP.add binary32 (intF n) (.fin k)) =
      .fin p ∧ |p - a * a * (n + k)| ≤ 16 / 5 / 2 ^ 24 * |a * a * (n + k)| + 1 / 2 ^ 80 ∧
      |a * a * (n + k)| ≤ 2 ^ 61 := by
  have hn' : (n : ℚ) ≤ 2 ^ 20 := by exact_mod_cast hn.le
  rw [intF_nat (hn.trans (by norm_num))]
  have haa : |a * a| ≤ 2 ^ 40 := by
    rw [abs_mul]
    exact (mul_le_mul ha ha (abs_nonneg _) (by norm_num)).trans (by norm_num)
  have hS : |n + k| ≤ 2 ^ 21 := by
    refine (abs_add_le _ _).trans ?_
    rw [abs_of_nonneg (show (0 : ℚ) ≤ n by positivity)]
    have : (2 : ℚ) ^ 20 + 2 ^ 20 ≤ 2 ^ 21 := by norm_num
    linarith
  have hP : |a * a * (n + k)| ≤ 2 ^ 61 := by
    rw [abs_mul]
    exact (mul_le_mul haa hS (abs_nonneg _) (by norm_num)).trans (by norm_num)
  have e1 : FP.mul binary32 (.fin a) (.fin a) = .fin (binary32.round (a * a)) :=
    b32_ofRat (haa.trans (by norm_num))
  have e2 : FP.add binary32 (.fin n) (.fin k) = .fin (binary32.round (n + k)) :=
    b32_ofRat (hS.trans (by norm_num))
  have c1 := b32_std (a * a)
  have c2 := b32_std (n + k)
  rw [e1, e2]
  generalize binary32.round (a * a) = q at *
  generalize binary32.round (n + k) = s at *
  have d1 := abs_add_le ((q - a * a) * (s - (n + k))) ((q - a * a) * (n + k) + a * a * (s - (n + k)))
  have d2 := abs_add_le ((q - a * a) * (n + k)) (a * a * (s - (n + k)))
  rw [show (q - a * a) * (s - (n + k)) + ((q - a * a) * (n + k) + a * a * (s - (n + k))) =
    q * s - a * a * (n + k) by ring] at d1
  rw [abs_mul (q - a * a) (n + k), abs_mul (a * a) (s - (n + k))] at d2
  rw [abs_mul (q - a * a)] at d1
  have f1 := mul_le_mul_of_nonneg_right c1 (abs_nonneg (n + k : ℚ))
  have f2 := mul_le_mul_of_nonneg_left c2 (abs_nonneg (a * a : ℚ))
  have f3 := mul_le_mul c1 c2 (abs_nonneg _) (by positivity)
  have g1 : (|a * a| / 2 ^ 24 + 1 / 2 ^ 150) * |n + k| =
    |a * a * (n + k)| / 2 ^ 24 + |n + k| / 2 ^ 150 := by rw [abs_mul (a * a)]; ring
  have g2 : |a * a| * (|n + k| / 2 ^ 24 + 1 / 2 ^ 150) =
    |a * a * (n + k)| / 2 ^ 24 + |a * a| / 2 ^ 150 := by rw [abs_mul (a * a)]; ring
  have g3 : (|a * a| / 2 ^ 24 + 1 / 2 ^ 150) * (|n + k| / 2 ^ 24 + 1 / 2 ^ 150) =
    |a * a * (n + k)| / 2 ^ 48 + |a * a| / 2 ^ 174 + |n + k| / 2 ^ 174 + 1 / 2 ^ 150 * (1 / 2 ^ 150) := by
    rw [abs_mul (a * a)]; ring
  rw [g1] at f1
  rw [g2] at f2
  rw [g3] at f3
  have hqs : |q * s - a * a * (n + k)| ≤ 21 / 10 / 2 ^ 24 * |a * a * (n + k)| + 1 / 2 ^ 90 := by
    refine d1.trans ((add_le_add f3 (d2.trans (add_le_add f1 f2))).trans ?_)
    clear d1 d2 f1 f2 f3 g1 g2 g3 c1 c2
    have := abs_nonneg (a * a * (n + k : ℚ))
    generalize |a * a * (n + k : ℚ)| = P at *
    generalize |a * a| = A at *
    generalize |(n : ℚ) + k| = S at *
    clear ha hk hn hn'
    norm_num at *
    linarith
  have hz := abs_sub_abs_le_abs_sub (q * s) (a * a * (n + k))
  have hb : |q * s| ≤ 2 ^ 127 := by
    generalize |a * a * (n + k : ℚ)| = P at *
    norm_num at hP hqs hz ⊢
    linarith
  refine ⟨binary32.round (q * s), b32_ofRat hb, ?_, hP⟩
  have c3 := b32_std (q * s)
  have c4 := abs_sub_le (binary32.round (q * s)) (q * s) (a * a * (n + k))
  clear d1 d2 f1 f2 f3 g1 g2 g3 c1 c2
  have hP0 := abs_nonneg (a * a * (n + k : ℚ))
  generalize |a * a * (n + k : ℚ)| = P at *
  generalize |q * s| = Q at *
  norm_num at c3 c4 hqs hz hP0 ⊢
  linarith

/-! ### Infinite weights -/

/-- not a finite number -/
def FP.NotFin (x : FP) : Prop := ∀ q, x ≠ .fin q

theorem notFin_inf (s : Bool) : FP.NotFin (.inf s) := fun _ => by simp

theorem notFin_mul {f : Fmt} {a b : FP} (h : a.NotFin ∨ b.NotFin) : (FP.mul f a b).NotFin := by
  intro q hq
  obtain ⟨⟨_, h1⟩, _, h2⟩ := fin_of_mul hq
  rcases h with h | h
  · exact h _ h1
  · exact h _ h2

theorem notFin_add {f : Fmt} {a b : FP} (h : a.NotFin ∨ b.NotFin) : (FP.add f a b).NotFin := by
  intro q hq
  obtain ⟨⟨_, h1⟩, _, h2⟩ := fin_of_add hq
  rcases h with h | h
  · exact h _ h1
  · exact h _ h2

theorem notFin_sub {f : Fmt} {a b : FP} (h : b.NotFin) : (FP.sub f a b).NotFin := by
  cases b with
  | fin q => exact absurd rfl (h q)
  | nan => cases a <;> intro q <;> simp [FP.sub]
  | inf s => cases a with
    | inf t =>
      intro q
      show (if t = s then FP.nan else FP.inf t) ≠ _
      split <;> simp
    | nan => intro q; simp [FP.sub]
    | fin a => intro q; simp [FP.sub]

theorem notFin_sub_left {f : Fmt} {a b : FP} (h : a.NotFin) : (FP.sub f a b).NotFin := by
  cases a with
  | fin q => exact absurd rfl (h q)
  | nan => cases b <;> intro q <;> simp [FP.sub]
  | inf s => cases b with
    | inf t =>
      intro q
      show (if s = t then FP.nan else FP.inf s) ≠ _
      split <;> simp
    | nan => intro q; simp [FP.sub]
    | fin a => intro q; simp [FP.sub]

theorem SumsTo.notFin {f : Fmt} {l : List FP} {x : FP} (h : SumsTo f l x)
    (hl : ∃ a ∈ l, a.NotFin) : x.NotFin := by
  induction h with
  | one a =>
    obtain ⟨b, hb, h⟩ := hl
    rw [List.mem_singleton] at hb
    exact hb ▸ h
  | add h1 h2 ih1 ih2 =>
    obtain ⟨b, hb, h⟩ := hl
    rw [List.mem_append] at hb
    rcases hb with hb | hb
    · exact notFin_add (.inl (ih1 ⟨b, hb, h⟩))
    · exact notFin_add (.inr (ih2 ⟨b, hb, h⟩))
  | perm hp h ih =>
    obtain ⟨b, hb, h⟩ := hl
    exact ih ⟨b, hp.symm.subset hb, h⟩

end Mot
