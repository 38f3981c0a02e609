import Verif.Model.FloatRound
import Verif.Spec.FloatRound
import Verif.Proofs.FloatPose
/-!
# Lemmas about rounding to decimal places in floating-point arithmetic
-/

namespace Mot

open Spec

/-! ### Rounding to integers -/

theorem abs_roundAway_sub_le (q : ℚ) : |(roundAway q : ℚ) - q| ≤ 1 / 2 := by
  unfold roundAway
  split
  · have h1 := Int.floor_le (q + 1 / 2)
    have h2 := Int.lt_floor_add_one (q + 1 / 2)
    rw [abs_le]; constructor <;> linarith
  · have h1 := Int.le_ceil (q - 1 / 2)
    have h2 := Int.ceil_lt_add_one (q - 1 / 2)
    rw [abs_le]; constructor <;> linarith

theorem roundAway_of_near {q : ℚ} {k : ℤ} (h : |q - k| < 1 / 2) : roundAway q = k := by
  obtain ⟨h1, h2⟩ := abs_lt.1 h
  unfold roundAway
  split
  · rw [Int.floor_eq_iff]; constructor <;> linarith
  · rw [Int.ceil_eq_iff]; constructor <;> linarith

theorem roundAway_int (k : ℤ) : roundAway k = k := roundAway_of_near (by simp)

theorem roundAway_neg (q : ℚ) : roundAway (-q) = -roundAway q := by
  unfold roundAway
  rcases lt_trichotomy q 0 with h | rfl | h
  · rw [if_pos (by linarith), if_neg (by linarith), ← Int.floor_neg]
    congr 1; ring
  · norm_num
  · rw [if_neg (by linarith), if_pos h.le, ← Int.ceil_neg]
    congr 1; ring

theorem roundAway_mono {x y : ℚ} (h : x ≤ y) : roundAway x ≤ roundAway y := by
  unfold roundAway
  split <;> split
  · exact Int.floor_le_floor (by linarith)
  · linarith
  · have h1 : ⌈x - 1 / 2⌉ ≤ 0 := Int.ceil_le.2 (by push_cast; linarith)
    have h2 : 0 ≤ ⌊y + 1 / 2⌋ := Int.floor_nonneg.2 (by linarith)
    exact h1.trans h2
  · exact Int.ceil_le_ceil (by linarith)

/-! ### binary64 -/

theorem b64_std (x : ℚ) : |binary64.round x - x| ≤ |x| / 2 ^ 53 + 1 / 2 ^ 200 := by
  have h := binary64.round_std x
  have e1 : (2 : ℚ) ^ (-(binary64.prec : ℤ)) = 1 / 2 ^ 53 := by
    show (2 : ℚ) ^ (-((53 : ℕ) : ℤ)) = _
    rw [zpow_neg, zpow_natCast, one_div]
  have e2 : (2 : ℚ) ^ (binary64.emin - 1) ≤ 1 / 2 ^ 200 := by
    have : (1 : ℚ) / 2 ^ 200 = (2 : ℚ) ^ (-((200 : ℕ) : ℤ)) := by
      rw [zpow_neg, zpow_natCast, one_div]
    rw [this]
    exact zpow_le_zpow_right₀ (by norm_num) (by decide)
  rw [e1] at h
  linarith [show |x| / 2 ^ 53 = 1 / 2 ^ 53 * |x| by ring]

theorem b64_ofRat {x : ℚ} (hx : |x| ≤ 2 ^ 250) : FP.ofRat binary64 x = .fin (binary64.round x) := by
  refine if_pos ?_
  have h1 := b64_std x
  have h2 : |binary64.round x| ≤ |binary64.round x - x| + |x| := by
    have := abs_add_le (binary64.round x - x) x
    simpa using this
  have h5 : (2 : ℚ) ^ ((252 : ℕ) : ℤ) ≤ (2 : ℚ) ^ binary64.emax :=
    zpow_le_zpow_right₀ (by norm_num) (by decide)
  rw [zpow_natCast] at h5
  refine lt_of_lt_of_le ?_ h5
  norm_num at *
  linarith

theorem pow10_exact {d : ℕ} (hd : d ≤ 22) : binary64.round (10 ^ d) = 10 ^ d := by
  have h := binary64.round_exact (m := (5 ^ d : ℤ)) (j := d) (by
    rw [abs_of_pos (by positivity)]
    exact (pow_le_pow_right₀ (by norm_num) hd).trans_lt (by decide)) (by
    show (-1074 : ℤ) ≤ d
    omega)
  rw [zpow_natCast] at h
  push_cast at h
  rwa [← mul_pow, show (5 : ℚ) * 2 = 10 by norm_num] at h

theorem multiplier_eq {d : ℕ} (hd : d ≤ 22) : multiplier d = .fin (10 ^ d) := by
  unfold multiplier
  rw [b64_ofRat, pow10_exact hd]
  rw [abs_of_pos (by positivity)]
  exact (pow_le_pow_right₀ (by norm_num) hd).trans (by norm_num)

/-- powers of ten are not near powers of two -/
theorem pow10_margin {d : ℕ} (h1 : 1 ≤ d) (h2 : d ≤ 22) (t : ℤ) :
    (2 : ℚ) ^ t * 10 ^ d ≤ 98 / 100 ∨ 102 / 100 ≤ (2 : ℚ) ^ t * 10 ^ d := by
  have hall : ∀ d ∈ Finset.Icc 1 22, 102 * 2 ^ Nat.log 2 (10 ^ d) ≤ 100 * 10 ^ d ∧
      100 * 10 ^ d ≤ 98 * 2 ^ (Nat.log 2 (10 ^ d) + 1) := by decide +kernel
  obtain ⟨a, b⟩ := hall d (Finset.mem_Icc.2 ⟨h1, h2⟩)
  have hd : (0 : ℚ) < 10 ^ d := by positivity
  generalize Nat.log 2 (10 ^ d) = L at *
  have a' : (102 : ℚ) * 2 ^ L ≤ 100 * 10 ^ d := by exact_mod_cast a
  have b' : (100 : ℚ) * 10 ^ d ≤ 98 * 2 ^ (L + 1) := by exact_mod_cast b
  rcases le_or_gt (-(L : ℤ)) t with h | h
  · right
    have : (2 : ℚ) ^ (-(L : ℤ)) ≤ 2 ^ t := zpow_le_zpow_right₀ (by norm_num) h
    have e : (2 : ℚ) ^ (-(L : ℤ)) * 2 ^ L = 1 := by
      rw [← zpow_natCast, ← zpow_add₀ (by norm_num)]; simp
    have p := Fmt.two_zpow_pos (-(L : ℤ))
    nlinarith
  · left
    have : (2 : ℚ) ^ t ≤ 2 ^ (-((L + 1 : ℕ) : ℤ)) :=
      zpow_le_zpow_right₀ (by norm_num) (by push_cast; omega)
    have e : (2 : ℚ) ^ (-((L + 1 : ℕ) : ℤ)) * 2 ^ (L + 1) = 1 := by
      rw [← zpow_natCast, ← zpow_add₀ (by norm_num)]; simp
    have p := Fmt.two_zpow_pos (-((L + 1 : ℕ) : ℤ))
    nlinarith

/-! ### `float`s -/

theorem Spec.IsFloat.round {x : ℚ} (h : IsFloat x) : binary32.round x = x := by
  obtain ⟨m, e, ⟨hm, he, -⟩, rfl, -⟩ := h
  exact binary32.round_exact hm he

theorem Spec.IsFloat.round64 {x : ℚ} (h : IsFloat x) : binary64.round x = x := by
  obtain ⟨m, e, ⟨hm, he, -⟩, rfl, -⟩ := h
  refine binary64.round_exact (hm.trans (by decide)) (le_trans (by decide) he)

theorem isFloat_round {w : ℚ} (h : |binary32.round w| < 2 ^ 128) : IsFloat (binary32.round w) := by
  obtain ⟨m, e, hc, hv, -⟩ := binary32.round_nearestEven (by decide) w
  exact ⟨m, e, hc, hv, h⟩

/-- the result of rounding is at least as near as any `float` -/
theorem Spec.IsFloat.nearest {x : ℚ} (h : IsFloat x) (w : ℚ) : |binary32.round w - w| ≤ |x - w| := by
  obtain ⟨m, e, hc, rfl, -⟩ := h
  obtain ⟨_, _, -, -, hn⟩ := binary32.round_nearestEven (by decide) w
  exact (hn m e hc).1

/-- large `float`s are multiples of powers of two -/
theorem Spec.IsFloat.multiple {x : ℚ} (h : IsFloat x) {s : ℤ} (hs : (2 : ℚ) ^ s ≤ |x|) :
    ∃ j : ℤ, x = j * (2 : ℚ) ^ (s - 23) := by
  obtain ⟨m, e, ⟨hm, -, -⟩, rfl, -⟩ := h
  have he : s - 23 ≤ e := by
    rw [abs_mul, abs_of_pos (Fmt.two_zpow_pos e)] at hs
    have h1 : |(m : ℚ)| < 2 ^ 24 := by exact_mod_cast hm
    have h2 : (2 : ℚ) ^ s < 2 ^ (24 + e) := by
      rw [zpow_add₀ (by norm_num)]
      refine hs.trans_lt (mul_lt_mul_of_pos_right ?_ (Fmt.two_zpow_pos e))
      exact_mod_cast h1
    have := (zpow_lt_zpow_iff_right₀ (by norm_num : (1 : ℚ) < 2)).1 h2
    omega
  obtain ⟨n, hn⟩ := Fmt.zpow_of_nonneg (k := e - (s - 23)) (by omega)
  refine ⟨m * n, ?_⟩
  push_cast
  rw [← hn, mul_assoc, ← zpow_add₀ (by norm_num)]
  congr 2
  ring

/-- distinct `float`s differ by a relative amount -/
theorem Spec.IsFloat.gap {x y : ℚ} (hx : IsFloat x) (hy : IsFloat y) (hne : x ≠ y) :
    |x| / 2 ^ 26 ≤ |x - y| := by
  by_cases h0 : x = 0
  · subst h0; simp
  by_cases hfar : |x| / 2 ≤ |x - y|
  · refine le_trans ?_ hfar
    have := abs_nonneg x
    norm_num
    linarith
  push Not at hfar
  have hy' : |x| / 2 ≤ |y| := by
    have := abs_sub_abs_le_abs_sub x y
    linarith
  have hpos : 0 < |x| := abs_pos.2 h0
  have hx2 : x / 2 ≠ 0 := by simpa using h0
  have hl := Fmt.two_zpow_log_le hx2
  have hu := Fmt.lt_two_zpow_log (x := x / 2)
  have ea : |x / 2| = |x| / 2 := by rw [abs_div]; norm_num
  rw [ea] at hl hu
  generalize Int.log 2 (|x| / 2) = s at *
  obtain ⟨i, hi⟩ := hx.multiple (s := s) (by linarith)
  obtain ⟨j, hj⟩ := hy.multiple (s := s) (by linarith)
  have hp := Fmt.two_zpow_pos (s - 23)
  have hij : (1 : ℚ) ≤ |((i - j : ℤ) : ℚ)| := by
    have : i - j ≠ 0 := by
      intro h
      apply hne
      rw [hi, hj, show i = j by omega]
    exact_mod_cast Int.one_le_abs this
  have e : x - y = ((i - j : ℤ) : ℚ) * (2 : ℚ) ^ (s - 23) := by
    rw [hi, hj]; push_cast; ring
  rw [e, abs_mul, abs_of_pos hp]
  have e2 : (2 : ℚ) ^ (s + 1) = 2 ^ 24 * (2 : ℚ) ^ (s - 23) := by
    rw [show s + 1 = 24 + (s - 23) by ring, zpow_add₀ (by norm_num)]; rfl
  rw [e2] at hu
  generalize |((i - j : ℤ) : ℚ)| = c at *
  norm_num at hu ⊢
  nlinarith

/-! ### The computation on finite numbers -/

/-- the integer to which `x · 10^d` is rounded -/
def decInt (x : ℚ) (d : ℕ) : ℤ := roundAway (binary64.round (x * 10 ^ d))

/-- the quotient in `double` -/
def decQuot (x : ℚ) (d : ℕ) : ℚ := binary64.round (decInt x d / 10 ^ d)

section
variable {d : ℕ} (hd : d ≤ 22)
include hd

theorem pow10_range : (1 : ℚ) ≤ 10 ^ d ∧ (10 : ℚ) ^ d ≤ 10 ^ 22 :=
  ⟨one_le_pow₀ (by norm_num), pow_le_pow_right₀ (by norm_num) hd⟩

omit hd in
theorem decInt_err (x : ℚ) (d : ℕ) :
    |(decInt x d : ℚ) - x * 10 ^ d| ≤ 1 / 2 + |x * 10 ^ d| / 2 ^ 53 + 1 / 2 ^ 200 := by
  have h1 := abs_roundAway_sub_le (binary64.round (x * 10 ^ d))
  have h2 := b64_std (x * 10 ^ d)
  have h3 := abs_add_le ((decInt x d : ℚ) - binary64.round (x * 10 ^ d))
    (binary64.round (x * 10 ^ d) - x * 10 ^ d)
  rw [sub_add_sub_cancel] at h3
  change |(decInt x d : ℚ) - _| ≤ _ at h1
  linarith

theorem decQuot_err (x : ℚ) :
    |decQuot x d * 10 ^ d - decInt x d| ≤ |(decInt x d : ℚ)| / 2 ^ 53 + 1 / 2 ^ 120 := by
  obtain ⟨m1, m2⟩ := pow10_range hd
  have h := b64_std (decInt x d / 10 ^ d)
  change |decQuot x d - _| ≤ _ at h
  have hm : (0 : ℚ) < 10 ^ d := by positivity
  generalize (10 : ℚ) ^ d = m at *
  have e : decQuot x d * m - decInt x d = (decQuot x d - decInt x d / m) * m := by
    field_simp
  rw [e, abs_mul, abs_of_pos hm]
  have e2 : |(decInt x d : ℚ) / m| = |(decInt x d : ℚ)| / m := by rw [abs_div, abs_of_pos hm]
  rw [e2] at h
  calc _ ≤ (|(decInt x d : ℚ)| / m / 2 ^ 53 + 1 / 2 ^ 200) * m :=
        mul_le_mul_of_nonneg_right h hm.le
    _ = |(decInt x d : ℚ)| / 2 ^ 53 + m / 2 ^ 200 := by field_simp
    _ ≤ _ := by
      have : m / 2 ^ 200 ≤ 1 / 2 ^ 120 := by
        rw [div_le_div_iff₀ (by positivity) (by positivity)]
        norm_num at m2 ⊢
        linarith
      linarith

/-- how far the quotient is from the number, in units of the last decimal place -/
theorem decQuot_near (x : ℚ) :
    |decQuot x d * 10 ^ d - x * 10 ^ d| ≤ 1 / 2 + |x * 10 ^ d| / 2 ^ 51 + 1 / 2 ^ 50 := by
  have h1 := decQuot_err hd x
  have h2 := decInt_err x d
  have h3 := abs_add_le (decQuot x d * 10 ^ d - decInt x d) ((decInt x d : ℚ) - x * 10 ^ d)
  rw [sub_add_sub_cancel] at h3
  have h4 := abs_add_le ((decInt x d : ℚ) - x * 10 ^ d) (x * 10 ^ d)
  rw [sub_add_cancel] at h4
  have := abs_nonneg (x * 10 ^ d)
  generalize |decQuot x d * 10 ^ d - x * 10 ^ d| = A at *
  generalize |decQuot x d * 10 ^ d - decInt x d| = B at *
  generalize |(decInt x d : ℚ) - x * 10 ^ d| = C at *
  generalize |(decInt x d : ℚ)| = D at *
  generalize |x * 10 ^ d| = X at *
  norm_num at *
  linarith

end

theorem decInt_zero (d : ℕ) : decInt 0 d = 0 := by
  unfold decInt
  rw [zero_mul, Fmt.round_zero]
  exact_mod_cast roundAway_int 0

theorem decQuot_zero (d : ℕ) : decQuot 0 d = 0 := by
  unfold decQuot
  rw [decInt_zero, Int.cast_zero, zero_div, Fmt.round_zero]

/-- either a `float` is left alone, or the result is rounded to the same integer again -/
theorem dec_again {x : ℚ} (hx : IsFloat x) {d : ℕ} (hd : d ≤ 22)
    (hy : IsFloat (binary32.round (decQuot x d))) :
    binary32.round (decQuot x d) = x ∨ decInt (binary32.round (decQuot x d)) d = decInt x d := by
  by_cases hne : binary32.round (decQuot x d) = x
  · exact .inl hne
  right
  rcases Nat.eq_zero_or_pos d with rfl | hd1
  · have hd0 : decInt x 0 = roundAway x := by
      unfold decInt; rw [pow_zero, mul_one, hx.round64]
    by_cases hb : 2 ^ 23 ≤ |x|
    · exfalso
      obtain ⟨j, hj⟩ := hx.multiple (s := 23) hb
      rw [sub_self, zpow_zero, mul_one] at hj
      apply hne
      unfold decQuot
      rw [hd0, pow_zero, div_one, hj, roundAway_int, ← hj, hx.round64, hx.round]
    · have hK : |roundAway x| ≤ 2 ^ 23 := by
        have h1 := abs_roundAway_sub_le x
        have h2 := abs_add_le ((roundAway x : ℚ) - x) x
        rw [sub_add_cancel] at h2
        have h3 : |(roundAway x : ℚ)| < 2 ^ 23 + 1 := by push Not at hb; linarith
        have h4 : |roundAway x| < 2 ^ 23 + 1 := by exact_mod_cast h3
        omega
      have e64 : binary64.round (roundAway x : ℚ) = roundAway x := by
        have := binary64.round_exact (m := roundAway x) (j := 0) (hK.trans_lt (by decide)) (by decide)
        simpa using this
      have e32 : binary32.round (roundAway x : ℚ) = roundAway x := by
        have := binary32.round_exact (m := roundAway x) (j := 0) (hK.trans_lt (by decide)) (by decide)
        simpa using this
      have ey : binary32.round (decQuot x 0) = roundAway x := by
        unfold decQuot
        rw [hd0, pow_zero, div_one, e64, e32]
      rw [ey, hd0]
      unfold decInt
      rw [pow_zero, mul_one, e64, roundAway_int]
  obtain ⟨m1, m2⟩ := pow10_range hd
  have near := hx.nearest (decQuot x d)
  have std := b32_std (decQuot x d)
  have gap := hx.gap hy (Ne.symm hne)
  have q1 := decQuot_err hd x
  have q2 := decQuot_near hd x
  have i1 := decInt_err x d
  have z1 := b64_std (binary32.round (decQuot x d) * 10 ^ d)
  have hm : (0 : ℚ) < 10 ^ d := by positivity
  by_contra hk
  have far : 1 / 2 ≤ |binary64.round (binary32.round (decQuot x d) * 10 ^ d) - decInt x d| := by
    by_contra hc
    exact hk (roundAway_of_near (not_le.1 hc))
  generalize hy0 : binary32.round (decQuot x d) = y at *
  -- scale everything
  have xy : |x * 10 ^ d| / 2 ^ 26 ≤ |x * 10 ^ d - y * 10 ^ d| := by
    rw [← sub_mul, abs_mul, abs_mul, abs_of_pos hm]
    have := mul_le_mul_of_nonneg_right gap hm.le
    linarith [show |x| * 10 ^ d / 2 ^ 26 = |x| / 2 ^ 26 * 10 ^ d by ring]
  have near' : |y * 10 ^ d - decQuot x d * 10 ^ d| ≤ |decQuot x d * 10 ^ d - x * 10 ^ d| := by
    rw [abs_sub_comm (decQuot x d * 10 ^ d), ← sub_mul, ← sub_mul, abs_mul, abs_mul]
    exact mul_le_mul_of_nonneg_right near (abs_nonneg _)
  have std' : |y * 10 ^ d - decQuot x d * 10 ^ d| ≤ |decQuot x d * 10 ^ d| / 2 ^ 24 + 1 / 2 ^ 70 := by
    rw [← sub_mul, abs_mul, abs_mul, abs_of_pos hm]
    have := mul_le_mul_of_nonneg_right std hm.le
    have e : (1 : ℚ) / 2 ^ 150 * 10 ^ d ≤ 1 / 2 ^ 70 := by
      refine (mul_le_mul_of_nonneg_left m2 (by positivity)).trans ?_
      norm_num
    rw [add_mul] at this
    linarith [show |decQuot x d| * 10 ^ d / 2 ^ 24 = |decQuot x d| / 2 ^ 24 * 10 ^ d by ring]
  have t1 := abs_add_le (x * 10 ^ d - decQuot x d * 10 ^ d) (decQuot x d * 10 ^ d - y * 10 ^ d)
  rw [sub_add_sub_cancel, abs_sub_comm (x * 10 ^ d) (decQuot x d * 10 ^ d),
    abs_sub_comm (decQuot x d * 10 ^ d) (y * 10 ^ d)] at t1
  have hX : |x * 10 ^ d| ≤ 2 ^ 27 := by
    clear z1 std std' far i1 q1 near
    generalize |x * 10 ^ d - y * 10 ^ d| = A at *
    generalize |decQuot x d * 10 ^ d - x * 10 ^ d| = B at *
    generalize |x * 10 ^ d| = X at *
    norm_num at *
    linarith
  have hxm : |x * 10 ^ d| = |x| * 10 ^ d := by rw [abs_mul, abs_of_pos hm]
  have hym : |y * 10 ^ d| = |y| * 10 ^ d := by rw [abs_mul, abs_of_pos hm]
  -- sizes
  have k4 := abs_add_le ((decInt x d : ℚ) - x * 10 ^ d) (x * 10 ^ d)
  rw [sub_add_cancel] at k4
  have k5 := abs_add_le (decQuot x d * 10 ^ d - decInt x d) (decInt x d : ℚ)
  rw [sub_add_cancel] at k5
  have k6 := abs_add_le (y * 10 ^ d - decQuot x d * 10 ^ d) (decQuot x d * 10 ^ d)
  rw [sub_add_cancel] at k6
  have k7 := abs_add_le (binary64.round (y * 10 ^ d) - y * 10 ^ d)
    (y * 10 ^ d - decQuot x d * 10 ^ d)
  rw [sub_add_sub_cancel] at k7
  have k8 := abs_add_le (binary64.round (y * 10 ^ d) - decQuot x d * 10 ^ d)
    (decQuot x d * 10 ^ d - decInt x d)
  rw [sub_add_sub_cancel] at k8
  have k9 := abs_sub_abs_le_abs_sub (decInt x d : ℚ) ((decInt x d : ℚ) - x * 10 ^ d)
  rw [sub_sub_cancel] at k9
  have k10 := abs_sub_abs_le_abs_sub (decInt x d : ℚ) ((decInt x d : ℚ) - decQuot x d * 10 ^ d)
  rw [sub_sub_cancel, abs_sub_comm (decInt x d : ℚ)] at k10
  have k11 := abs_sub_abs_le_abs_sub (decQuot x d * 10 ^ d)
    (decQuot x d * 10 ^ d - y * 10 ^ d)
  rw [sub_sub_cancel, abs_sub_comm _ (y * 10 ^ d)] at k11
  have far2 : 1 / 2 - 1 / 2 ^ 24 ≤ |y * 10 ^ d - decQuot x d * 10 ^ d| ∧
      |decQuot x d * 10 ^ d - x * 10 ^ d| ≤ 1 / 2 + 1 / 2 ^ 23 := by
    clear gap xy std std' near t1 hxm hym k9 k10 k11
    generalize |decQuot x d * 10 ^ d - x * 10 ^ d| = B at *
    generalize |x * 10 ^ d| = X at *
    generalize |y * 10 ^ d| = Y at *
    generalize |decQuot x d * 10 ^ d| = W at *
    generalize |(decInt x d : ℚ) - x * 10 ^ d| = C at *
    generalize |(decInt x d : ℚ)| = K at *
    generalize |y * 10 ^ d - decQuot x d * 10 ^ d| = D at *
    generalize |decQuot x d * 10 ^ d - decInt x d| = E at *
    generalize |binary64.round (y * 10 ^ d) - y * 10 ^ d| = F at *
    generalize |binary64.round (y * 10 ^ d) - decInt x d| = G at *
    generalize |binary64.round (y * 10 ^ d) - decQuot x d * 10 ^ d| = H at *
    norm_num at *
    constructor <;> linarith
  obtain ⟨far2, far3⟩ := far2
  have big : 2 ^ 23 - 8 < |(decInt x d : ℚ)| := by
    by_contra hc
    push Not at hc
    clear gap xy near t1 hxm hym k9 k10 k11 far far3 z1 k4 k6 k7 k8 i1 q2 near'
    generalize |decQuot x d * 10 ^ d| = W at *
    generalize |(decInt x d : ℚ)| = K at *
    generalize |y * 10 ^ d - decQuot x d * 10 ^ d| = D at *
    generalize |decQuot x d * 10 ^ d - decInt x d| = E at *
    norm_num at *
    linarith
  have xbig : 2 ^ 23 - 16 ≤ |x * 10 ^ d| ∧ 2 ^ 23 - 16 ≤ |y * 10 ^ d| := by
    clear gap xy near t1 hxm hym far far2 z1 k6 k7 k8 q2 std std'
    generalize |decQuot x d * 10 ^ d - x * 10 ^ d| = B at *
    generalize |x * 10 ^ d| = X at *
    generalize |y * 10 ^ d| = Y at *
    generalize |decQuot x d * 10 ^ d| = W at *
    generalize |(decInt x d : ℚ) - x * 10 ^ d| = C at *
    generalize |(decInt x d : ℚ)| = K at *
    generalize |y * 10 ^ d - decQuot x d * 10 ^ d| = D at *
    generalize |decQuot x d * 10 ^ d - decInt x d| = E at *
    norm_num at *
    constructor <;> linarith
  obtain ⟨xbig, ybig⟩ := xbig
  -- distance of x and y
  have dist : |x * 10 ^ d - y * 10 ^ d| ≤ 1 / 2 ^ 21 ∨
      (1 - 1 / 2 ^ 22 ≤ |x * 10 ^ d - y * 10 ^ d| ∧ |x * 10 ^ d - y * 10 ^ d| ≤ 1 + 1 / 2 ^ 21) := by
    clear k4 k5 k6 k7 k8 k9 k10 k11 gap xy near t1 hxm hym far z1 q1 q2 std std' xbig ybig big i1 hX
    generalize x * 10 ^ d = X at *
    generalize y * 10 ^ d = Y at *
    generalize decQuot x d * 10 ^ d = W at *
    have far4 := far2.trans near'
    have far5 := near'.trans far3
    norm_num at *
    rcases abs_cases (Y - W) with ⟨e1, _⟩ | ⟨e1, _⟩ <;>
    rcases abs_cases (W - X) with ⟨e2, _⟩ | ⟨e2, _⟩ <;>
      rw [e1] at far2 far5 <;> rw [e2] at far3 far4
    · right
      rw [abs_sub_comm, abs_of_nonneg (by linarith)]
      constructor <;> linarith
    · left
      rw [abs_le]
      constructor <;> linarith
    · left
      rw [abs_le]
      constructor <;> linarith
    · right
      rw [abs_of_nonneg (by linarith)]
      constructor <;> linarith
  -- both are multiples of a power of two
  have hR : (0 : ℚ) < (2 ^ 23 - 16) / 10 ^ d := by positivity
  have hl := Fmt.two_zpow_log_le hR.ne'
  have hu := Fmt.lt_two_zpow_log (x := (2 ^ 23 - 16) / 10 ^ d)
  rw [abs_of_pos hR] at hl hu
  generalize Int.log 2 (((2 : ℚ) ^ 23 - 16) / 10 ^ d) = s at *
  rw [le_div_iff₀ hm] at hl
  rw [div_lt_iff₀ hm] at hu
  obtain ⟨i, hi⟩ := hx.multiple (s := s) (by
    rw [hxm] at xbig
    exact le_of_mul_le_mul_right (hl.trans xbig) hm)
  obtain ⟨j, hj⟩ := hy.multiple (s := s) (by
    rw [hym] at ybig
    exact le_of_mul_le_mul_right (hl.trans ybig) hm)
  have hp := Fmt.two_zpow_pos (s - 23)
  have hij : i - j ≠ 0 := by
    intro h
    apply hne
    rw [hi, hj, show i = j by omega]
  have e : |x * 10 ^ d - y * 10 ^ d| = ((|i - j| : ℤ) : ℚ) * ((2 : ℚ) ^ (s - 23) * 10 ^ d) := by
    rw [← sub_mul, hi, hj, ← sub_mul, abs_mul, abs_mul, abs_of_pos hm, abs_of_pos hp]
    push_cast
    ring
  have e2 : (2 : ℚ) ^ (s + 1) = 2 ^ 24 * (2 : ℚ) ^ (s - 23) := by
    rw [show s + 1 = 24 + (s - 23) by ring, zpow_add₀ (by norm_num)]; rfl
  have e3 : (2 : ℚ) ^ (s - 22) = 2 * (2 : ℚ) ^ (s - 23) := by
    rw [show s - 22 = 1 + (s - 23) by ring, zpow_add₀ (by norm_num)]; rfl
  rw [e2, mul_assoc] at hu
  rw [e] at dist
  have c1 := pow10_margin hd1 hd (s - 23)
  have c2 := pow10_margin hd1 hd (s - 22)
  rw [e3, mul_assoc] at c2
  have hn1 : (1 : ℤ) ≤ |i - j| := Int.one_le_abs hij
  generalize |i - j| = n at *
  generalize (2 : ℚ) ^ (s - 23) * 10 ^ d = T at *
  clear k4 k5 k6 k7 k8 k9 k10 k11 gap xy near t1 hxm hym far z1 q1 q2 std std' xbig ybig big i1 hX
    e far2 far3 near' hi hj hl hR
  have hn1' : (1 : ℚ) ≤ n := by exact_mod_cast hn1
  have hT : 49 / 100 ≤ T := by norm_num at hu; linarith
  have hn : n < 3 := by
    by_contra hc
    have : (3 : ℚ) ≤ n := by exact_mod_cast not_lt.1 hc
    norm_num at dist
    rcases dist with h | ⟨-, h⟩ <;> nlinarith
  have hn' : n = 1 ∨ n = 2 := by omega
  norm_num at dist c1 c2
  rcases hn' with rfl | rfl
  · push_cast at dist
    rcases dist with h | ⟨h1, h2⟩ <;> rcases c1 with c1 | c1 <;> linarith
  · push_cast at dist
    rcases dist with h | ⟨h1, h2⟩ <;> rcases c2 with c2 | c2 <;> linarith

theorem dec64_fin {x : ℚ} {d : ℕ} (hd : d ≤ 22) (hx : |x * 10 ^ d| ≤ 2 ^ 203) :
    roundDec64 (.fin x) d = .fin (decQuot x d) := by
  obtain ⟨m1, m2⟩ := pow10_range hd
  have hm : (0 : ℚ) < 10 ^ d := by positivity
  have e1 : FP.mul binary64 (.fin x) (.fin (10 ^ d)) = .fin (binary64.round (x * 10 ^ d)) :=
    b64_ofRat (hx.trans (by norm_num))
  unfold roundDec64
  rw [multiplier_eq hd, e1]
  show FP.div binary64 (.fin (decInt x d)) (.fin (10 ^ d)) = _
  unfold FP.div
  simp only
  rw [if_neg hm.ne']
  refine b64_ofRat ?_
  have h2 := decInt_err x d
  have h4 := abs_add_le ((decInt x d : ℚ) - x * 10 ^ d) (x * 10 ^ d)
  rw [sub_add_cancel] at h4
  rw [abs_div, abs_of_pos hm]
  refine (div_le_self (abs_nonneg _) m1).trans ?_
  generalize |(decInt x d : ℚ) - x * 10 ^ d| = C at *
  generalize |(decInt x d : ℚ)| = D at *
  generalize |x * 10 ^ d| = X at *
  norm_num at *
  linarith

theorem Spec.IsFloat.le_max {x : ℚ} (h : IsFloat x) : |x| ≤ (2 ^ 24 - 1) * 2 ^ 104 := by
  by_cases hb : |x| < 2 ^ 127
  · exact hb.le.trans (by norm_num)
  · obtain ⟨j, hj⟩ := h.multiple (s := 127) (not_lt.1 hb)
    obtain ⟨-, -, -, -, hlt⟩ := h
    have e : (2 : ℚ) ^ ((127 : ℤ) - 23) = 2 ^ 104 := by
      rw [show ((127 : ℤ) - 23) = ((104 : ℕ) : ℤ) by norm_num, zpow_natCast]
    rw [e] at hj
    rw [hj, abs_mul, abs_of_pos (by positivity : (0 : ℚ) < 2 ^ 104)] at hlt ⊢
    have : |(j : ℚ)| < 2 ^ 24 := by
      refine lt_of_mul_lt_mul_right (hlt.trans_le (le_of_eq ?_)) (by positivity : (0 : ℚ) ≤ 2 ^ 104)
      norm_num
    have h2 : |j| < 2 ^ 24 := by exact_mod_cast this
    have h3 : |j| ≤ 2 ^ 24 - 1 := by omega
    have h4 : |(j : ℚ)| ≤ 2 ^ 24 - 1 := by exact_mod_cast h3
    exact mul_le_mul_of_nonneg_right h4 (by positivity)

theorem Spec.IsFloat.scaled {x : ℚ} (h : IsFloat x) {d : ℕ} (hd : d ≤ 22) :
    |x * 10 ^ d| ≤ 2 ^ 203 := by
  obtain ⟨m1, m2⟩ := pow10_range hd
  have h1 := h.le_max
  rw [abs_mul, abs_of_pos (by positivity : (0 : ℚ) < 10 ^ d)]
  calc |x| * 10 ^ d ≤ ((2 ^ 24 - 1) * 2 ^ 104) * 10 ^ 22 :=
        mul_le_mul h1 m2 (by positivity) (by positivity)
    _ ≤ _ := by norm_num

theorem dec32_fin {x : ℚ} (hx : IsFloat x) {d : ℕ} (hd : d ≤ 22) :
    roundDec32 (.fin x) d = .fin (binary32.round (decQuot x d)) ∧
      IsFloat (binary32.round (decQuot x d)) := by
  obtain ⟨m1, m2⟩ := pow10_range hd
  have hm : (0 : ℚ) < 10 ^ d := by positivity
  have h1 := hx.le_max
  have h2 := decQuot_near hd x
  have h3 : |decQuot x d - x| ≤ 1 + |x| / 2 ^ 51 := by
    rw [← sub_mul, abs_mul, abs_mul, abs_of_pos hm] at h2
    have : |decQuot x d - x| * 10 ^ d ≤ (1 + |x| / 2 ^ 51) * 10 ^ d := by
      refine h2.trans ?_
      generalize (10 : ℚ) ^ d = m at *
      norm_num
      linarith
    exact le_of_mul_le_mul_right this hm
  have h4 := abs_add_le (decQuot x d - x) x
  rw [sub_add_cancel] at h4
  have hov := binary32.overflow_iff (by decide) (by decide) (by decide +kernel) (by decide)
    (decQuot x d)
  have hlt : |binary32.round (decQuot x d)| < (2 : ℚ) ^ binary32.emax := by
    refine hov.2 ?_
    show |decQuot x d| < (2 ^ 25 - 1) * (2 : ℚ) ^ ((103 : ℕ) : ℤ)
    rw [zpow_natCast]
    norm_num at *
    linarith
  refine ⟨?_, isFloat_round (by rw [b32_emax] at hlt; exact hlt)⟩
  unfold roundDec32
  rw [dec64_fin hd (hx.scaled hd)]
  exact if_pos hlt

theorem decQuot_mono {x y : ℚ} (h : x ≤ y) (d : ℕ) : decQuot x d ≤ decQuot y d := by
  have hm : (0 : ℚ) < 10 ^ d := by positivity
  refine binary64.round_mono_all (by decide) (div_le_div_of_nonneg_right ?_ hm.le)
  exact Int.cast_le.2 (roundAway_mono (binary64.round_mono_all (by decide)
    (mul_le_mul_of_nonneg_right h hm.le)))

theorem decQuot_neg (x : ℚ) (d : ℕ) : decQuot (-x) d = -decQuot x d := by
  unfold decQuot decInt
  rw [neg_mul, binary64.round_neg, roundAway_neg, Int.cast_neg, neg_div, binary64.round_neg]

/-- below 2⁵¹ units of the last decimal place the `double` computation finds the same integer
again -/
theorem dec64_again {x : ℚ} {d : ℕ} (hd : d ≤ 22) (hx : |x * 10 ^ d| ≤ 2 ^ 51 - 1) :
    decInt (decQuot x d) d = decInt x d := by
  have i1 := decInt_err x d
  have k4 := abs_add_le ((decInt x d : ℚ) - x * 10 ^ d) (x * 10 ^ d)
  rw [sub_add_cancel] at k4
  have hK : |(decInt x d : ℚ)| ≤ 2 ^ 51 - 1 := by
    have : |(decInt x d : ℚ)| < 2 ^ 51 := by
      generalize |(decInt x d : ℚ) - x * 10 ^ d| = C at *
      generalize |x * 10 ^ d| = X at *
      norm_num at *
      linarith
    have h2 : |decInt x d| < 2 ^ 51 := by exact_mod_cast this
    have h3 : |decInt x d| ≤ 2 ^ 51 - 1 := by omega
    exact_mod_cast h3
  have q1 := decQuot_err hd x
  have z1 := b64_std (decQuot x d * 10 ^ d)
  have k5 := abs_add_le (decQuot x d * 10 ^ d - decInt x d) (decInt x d : ℚ)
  rw [sub_add_cancel] at k5
  have k7 := abs_add_le (binary64.round (decQuot x d * 10 ^ d) - decQuot x d * 10 ^ d)
    (decQuot x d * 10 ^ d - decInt x d)
  rw [sub_add_sub_cancel] at k7
  refine roundAway_of_near (k7.trans_lt ?_)
  clear i1 k4 k7
  generalize |(decInt x d : ℚ)| = K at *
  generalize |decQuot x d * 10 ^ d - decInt x d| = E at *
  generalize |binary64.round (decQuot x d * 10 ^ d) - decQuot x d * 10 ^ d| = F at *
  generalize |decQuot x d * 10 ^ d| = W at *
  norm_num at *
  linarith

end Mot
