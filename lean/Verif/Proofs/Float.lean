import Verif.Model.Float
import Mathlib.Tactic.Linarith
import Mathlib.Tactic.Positivity
import Mathlib.Tactic.NormNum
import Mathlib.Tactic.Ring
import Mathlib.Tactic.FieldSimp
/-! # Facts about rounding -/

namespace Mot

theorem abs_roundHalfEven_sub_le (y : ℚ) : |(roundHalfEven y : ℚ) - y| ≤ 1 / 2 := by
  have h1 := Int.floor_le y
  have h2 := Int.lt_floor_add_one y
  unfold roundHalfEven
  split
  · rw [abs_le]; constructor <;> linarith
  · split
    · push_cast; rw [abs_le]; constructor <;> linarith
    · split
      · rw [abs_le]; constructor <;> linarith
      · push_cast; rw [abs_le]; constructor <;> linarith

theorem roundHalfEven_intCast (n : ℤ) : roundHalfEven (n : ℚ) = n := by
  unfold roundHalfEven
  rw [Int.floor_intCast]
  rw [if_pos (by rw [sub_self]; norm_num)]

theorem roundHalfEven_mono {x y : ℚ} (h : x ≤ y) : roundHalfEven x ≤ roundHalfEven y := by
  rcases lt_or_eq_of_le (Int.floor_mono h) with hlt | heq
  · -- different integer parts: RHE x ≤ ⌊x⌋+1 ≤ ⌊y⌋ ≤ RHE y
    have hx : roundHalfEven x ≤ ⌊x⌋ + 1 := by
      unfold roundHalfEven; split_ifs <;> omega
    have hy : ⌊y⌋ ≤ roundHalfEven y := by
      unfold roundHalfEven; split_ifs <;> omega
    omega
  · unfold roundHalfEven
    rw [← heq]
    split_ifs <;> first | omega | (exfalso; linarith)

theorem roundHalfEven_le_of_le_int {x : ℚ} {n : ℤ} (h : x ≤ n) : roundHalfEven x ≤ n := by
  have := roundHalfEven_mono h
  rwa [roundHalfEven_intCast] at this

theorem le_roundHalfEven_of_int_le {x : ℚ} {n : ℤ} (h : (n : ℚ) ≤ x) : n ≤ roundHalfEven x := by
  have := roundHalfEven_mono h
  rwa [roundHalfEven_intCast] at this

namespace Fmt

theorem two_zpow_pos (k : ℤ) : (0 : ℚ) < (2 : ℚ) ^ k := zpow_pos (by norm_num) k

/-- integer power of two as a rational -/
theorem zpow_of_nonneg {k : ℤ} (h : 0 ≤ k) : ∃ n : ℤ, (2 : ℚ) ^ k = n := by
  obtain ⟨m, rfl⟩ := Int.eq_ofNat_of_zero_le h
  exact ⟨2 ^ m, by push_cast; simp⟩

theorem round_zero (f : Fmt) : f.round 0 = 0 := by
  unfold round
  rw [zero_div, show (0 : ℚ) = ((0 : ℤ) : ℚ) by norm_num, roundHalfEven_intCast]
  simp

theorem round_nonneg (f : Fmt) {x : ℚ} (h : 0 ≤ x) : 0 ≤ f.round x := by
  unfold round
  apply mul_nonneg _ (two_zpow_pos _).le
  have : (0 : ℤ) ≤ roundHalfEven (x / 2 ^ f.ulpExp x) := by
    apply le_roundHalfEven_of_int_le
    push_cast
    exact div_nonneg h (two_zpow_pos _).le
  exact_mod_cast this

theorem abs_round_sub_le (f : Fmt) (x : ℚ) : |f.round x - x| ≤ (2 : ℚ) ^ f.ulpExp x / 2 := by
  have hp := two_zpow_pos (f.ulpExp x)
  have h := abs_roundHalfEven_sub_le (x / 2 ^ f.ulpExp x)
  have : f.round x - x =
      ((roundHalfEven (x / 2 ^ f.ulpExp x) : ℚ) - x / 2 ^ f.ulpExp x) * 2 ^ f.ulpExp x := by
    unfold round; field_simp
  rw [this, abs_mul, abs_of_pos hp]
  nlinarith

/-- numbers with a short significand are not changed -/
theorem round_exact (f : Fmt) {m : ℤ} {j : ℤ} (hm : |m| < 2 ^ f.prec) (hj : f.emin ≤ j) :
    f.round (m * (2 : ℚ) ^ j) = m * (2 : ℚ) ^ j := by
  by_cases hm0 : m = 0
  · subst hm0; simp [round_zero]
  set x : ℚ := m * (2 : ℚ) ^ j with hx
  have hk : f.ulpExp x ≤ j := by
    unfold ulpExp
    refine max_le ?_ hj
    have hpos : 0 < |x| := by
      rw [hx]; apply abs_pos.2
      exact mul_ne_zero (by exact_mod_cast hm0) (two_zpow_pos j).ne'
    have hlt : |x| < ((2 : ℕ) : ℚ) ^ (f.prec + j : ℤ) := by
      rw [hx, abs_mul, abs_of_pos (two_zpow_pos j), Nat.cast_ofNat,
        zpow_add₀ (by norm_num), zpow_natCast]
      have : |(m : ℚ)| < 2 ^ f.prec := by exact_mod_cast hm
      exact mul_lt_mul_of_pos_right this (two_zpow_pos j)
    have := (Int.lt_zpow_iff_log_lt (b := 2) (by norm_num) hpos).1 hlt
    omega
  obtain ⟨n, hn⟩ := zpow_of_nonneg (k := j - f.ulpExp x) (by omega)
  have hdiv : x / (2 : ℚ) ^ f.ulpExp x = ((m * n : ℤ) : ℚ) := by
    push_cast
    rw [← hn, zpow_sub₀ (by norm_num)]
    conv_lhs => rw [hx]
    rw [mul_div_assoc]
  unfold round
  rw [hdiv, roundHalfEven_intCast, ← hdiv]
  field_simp

theorem round_mono (f : Fmt) (hf : 1 ≤ f.prec) {x y : ℚ} (hx : 0 ≤ x) (h : x ≤ y) :
    f.round x ≤ f.round y := by
  rcases hx.eq_or_lt with rfl | hx
  · rw [round_zero]; exact f.round_nonneg h
  have hy : 0 < y := lt_of_lt_of_le hx h
  have hlog : Int.log 2 |x| ≤ Int.log 2 |y| := by
    rw [abs_of_pos hx, abs_of_pos hy]; exact Int.log_mono_right hx h
  have hk : f.ulpExp x ≤ f.ulpExp y := by
    unfold ulpExp
    exact max_le_max (by omega) le_rfl
  rcases hk.eq_or_lt with heq | hlt
  · unfold round
    rw [heq]
    have : roundHalfEven (x / 2 ^ f.ulpExp y) ≤ roundHalfEven (y / 2 ^ f.ulpExp y) :=
      roundHalfEven_mono (div_le_div_of_nonneg_right h (two_zpow_pos _).le)
    have : (roundHalfEven (x / 2 ^ f.ulpExp y) : ℚ) ≤ roundHalfEven (y / 2 ^ f.ulpExp y) := by
      exact_mod_cast this
    exact mul_le_mul_of_nonneg_right this (two_zpow_pos _).le
  · have hky : f.ulpExp y = Int.log 2 |y| - (f.prec - 1) := by
      have hmin : f.emin ≤ f.ulpExp x := le_max_right _ _
      have : f.ulpExp y = max (Int.log 2 |y| - (f.prec - 1)) f.emin := rfl
      omega
    have hkx : Int.log 2 |x| - (f.prec - 1) ≤ f.ulpExp x := le_max_left _ _
    have hee : Int.log 2 |x| < Int.log 2 |y| := by omega
    -- the power of two separating the binades
    have hxs : x ≤ (2 : ℚ) ^ (Int.log 2 |y|) := by
      have h1 := Int.lt_zpow_succ_log_self (b := 2) (by norm_num) |x|
      rw [abs_of_pos hx, Nat.cast_ofNat] at h1
      refine h1.le.trans (zpow_le_zpow_right₀ (by norm_num) ?_)
      rw [abs_of_pos hx] at hee; omega
    have hys : (2 : ℚ) ^ (Int.log 2 |y|) ≤ y := by
      have h1 := Int.zpow_log_le_self (b := 2) (r := |y|) (by norm_num) (abs_pos.2 hy.ne')
      rw [Nat.cast_ofNat] at h1
      rwa [abs_of_pos hy] at h1 ⊢
    have key : ∀ k : ℤ, k ≤ Int.log 2 |y| →
        ∃ n : ℤ, (2 : ℚ) ^ (Int.log 2 |y|) = n * (2 : ℚ) ^ k := by
      intro k hk
      obtain ⟨n, hn⟩ := zpow_of_nonneg (k := Int.log 2 |y| - k) (by omega)
      refine ⟨n, ?_⟩
      rw [← hn, ← zpow_add₀ (by norm_num)]; congr 1; omega
    obtain ⟨n, hn⟩ := key (f.ulpExp x) (by omega)
    obtain ⟨n', hn'⟩ := key (f.ulpExp y) (by omega)
    have hA : f.round x ≤ (2 : ℚ) ^ (Int.log 2 |y|) := by
      rw [hn]; unfold round
      have : roundHalfEven (x / 2 ^ f.ulpExp x) ≤ n := by
        apply roundHalfEven_le_of_le_int
        rw [div_le_iff₀ (two_zpow_pos _), ← hn]; exact hxs
      exact mul_le_mul_of_nonneg_right (by exact_mod_cast this) (two_zpow_pos _).le
    have hB : (2 : ℚ) ^ (Int.log 2 |y|) ≤ f.round y := by
      rw [hn']; unfold round
      have : n' ≤ roundHalfEven (y / 2 ^ f.ulpExp y) := by
        apply le_roundHalfEven_of_int_le
        rw [le_div_iff₀ (two_zpow_pos _), ← hn']; exact hys
      exact mul_le_mul_of_nonneg_right (by exact_mod_cast this) (two_zpow_pos _).le
    exact hA.trans hB

/-- rounding error for numbers below a power of two -/
theorem abs_round_sub_le_of_lt (f : Fmt) {x : ℚ} {e : ℤ} (hx : |x| < (2 : ℚ) ^ e)
    (hpos : x ≠ 0) (he : f.emin ≤ e - f.prec) :
    |f.round x - x| ≤ (2 : ℚ) ^ (e - f.prec) / 2 := by
  refine (f.abs_round_sub_le x).trans ?_
  have : f.ulpExp x ≤ e - f.prec := by
    unfold ulpExp
    refine max_le ?_ he
    have := (Int.lt_zpow_iff_log_lt (b := 2) (r := |x|) (by norm_num) (abs_pos.2 hpos)).1
      (by rw [Nat.cast_ofNat]; exact hx)
    omega
  have := zpow_le_zpow_right₀ (a := (2 : ℚ)) (by norm_num) this
  linarith

end Fmt

end Mot
