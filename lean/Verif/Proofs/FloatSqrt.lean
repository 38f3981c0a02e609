import Verif.Model.FloatPose
import Verif.Spec.FloatPose
import Verif.Proofs.Ieee
import Mathlib.Tactic.Ring
import Mathlib.Tactic.Linarith
/-!
# Correct rounding of the square root
-/

namespace Mot

open Spec

theorem intSqrt_bounds {n : ℤ} (hn : 0 ≤ n) :
    0 ≤ Int.sqrt n ∧ Int.sqrt n ^ 2 ≤ n ∧ n < (Int.sqrt n + 1) ^ 2 := by
  obtain ⟨m, rfl⟩ := Int.eq_ofNat_of_zero_le hn
  rw [show Int.sqrt (m : ℤ) = ((Nat.sqrt m : ℕ) : ℤ) from Int.sqrt_natCast m]
  have h1 := Nat.sqrt_le' m
  have h2 := Nat.lt_succ_sqrt' m
  refine ⟨by positivity, by exact_mod_cast h1, by exact_mod_cast h2⟩

/-- the nearest integer to a number between `k` and `k + 1` -/
theorem nearest_of_cell {z : ℝ} {k m : ℤ} (h1 : (k : ℝ) ≤ z) (h2 : z < k + 1)
    (hlo : z < k + 1 / 2 → m = k) (hhi : k + 1 / 2 < z → m = k + 1)
    (htie : z = k + 1 / 2 → (m = k ∨ m = k + 1) ∧ Even m) (j : ℤ) :
    |(m : ℝ) - z| ≤ |(j : ℝ) - z| ∧ (|(m : ℝ) - z| = |(j : ℝ) - z| → j ≠ m → Even m) := by
  have hj : (j : ℝ) ≤ k ∨ (k : ℝ) + 1 ≤ j := by
    rcases lt_or_ge k j with h | h
    · right; exact_mod_cast h
    · left; exact_mod_cast h
  rcases lt_trichotomy z (k + 1 / 2) with h | h | h
  · rw [hlo h]
    rw [abs_of_nonpos (by linarith)]
    rcases hj with hj | hj
    · rw [abs_of_nonpos (by linarith)]
      refine ⟨by linarith, fun e hne => absurd ?_ hne⟩
      have : (j : ℝ) = k := by linarith
      exact_mod_cast this
    · rw [abs_of_nonneg (by linarith)]
      exact ⟨by linarith, fun e _ => by linarith⟩
  · obtain ⟨hm, he⟩ := htie h
    refine ⟨?_, fun _ _ => he⟩
    have : |(m : ℝ) - z| = 1 / 2 := by
      rcases hm with rfl | rfl
      · rw [h, abs_of_nonpos (by linarith)]; ring
      · rw [h, abs_of_nonneg (by push_cast; linarith)]; push_cast; ring
    rw [this]
    rcases hj with hj | hj
    · rw [abs_of_nonpos (by linarith)]; linarith
    · rw [abs_of_nonneg (by linarith)]; linarith
  · rw [hhi h]
    push_cast
    rw [abs_of_nonneg (by linarith)]
    rcases hj with hj | hj
    · rw [abs_of_nonpos (by linarith)]
      exact ⟨by linarith, fun e _ => by linarith⟩
    · rw [abs_of_nonneg (by linarith)]
      refine ⟨by linarith, fun e hne => absurd ?_ hne⟩
      have : (j : ℝ) = k + 1 := by linarith
      exact_mod_cast this

theorem roundSqrt_nearest {y : ℚ} (hy : 0 ≤ y) (j : ℤ) :
    |(roundSqrt y : ℝ) - √y| ≤ |(j : ℝ) - √y| ∧
    (|(roundSqrt y : ℝ) - √y| = |(j : ℝ) - √y| → j ≠ roundSqrt y → Even (roundSqrt y)) := by
  have hfl : 0 ≤ ⌊y⌋ := Int.floor_nonneg.2 hy
  obtain ⟨hk0, hk1, hk2⟩ := intSqrt_bounds hfl
  set k := Int.sqrt ⌊y⌋ with hk
  have hkr : (0 : ℝ) ≤ k := by exact_mod_cast hk0
  have hyr : (0 : ℝ) ≤ y := by exact_mod_cast hy
  have h1 : (k : ℝ) ^ 2 ≤ y := by
    have a : ((k ^ 2 : ℤ) : ℚ) ≤ y := le_trans (by exact_mod_cast hk1) (Int.floor_le y)
    exact_mod_cast a
  have h2 : (y : ℝ) < (k + 1) ^ 2 := by
    have a : y < ((⌊y⌋ + 1 : ℤ) : ℚ) := by push_cast; exact Int.lt_floor_add_one y
    have b : ((⌊y⌋ + 1 : ℤ) : ℚ) ≤ (((k + 1) ^ 2 : ℤ) : ℚ) := by exact_mod_cast hk2
    have c := a.trans_le b
    exact_mod_cast c
  have cmp : ((y : ℝ) < (k + 1 / 2) ^ 2 ↔ y < (k + 1 / 2) ^ 2) ∧
      ((k + 1 / 2 : ℝ) ^ 2 < y ↔ (k + 1 / 2) ^ 2 < y) := by
    constructor
    · rw [show ((k : ℝ) + 1 / 2) ^ 2 = (((k + 1 / 2) ^ 2 : ℚ) : ℝ) by push_cast; ring, Rat.cast_lt]
    · rw [show ((k : ℝ) + 1 / 2) ^ 2 = (((k + 1 / 2) ^ 2 : ℚ) : ℝ) by push_cast; ring, Rat.cast_lt]
  have hs : √(y : ℝ) ^ 2 = y := Real.sq_sqrt hyr
  have hs0 := Real.sqrt_nonneg (y : ℝ)
  apply nearest_of_cell (k := k)
  · exact Real.le_sqrt_of_sq_le h1
  · rw [Real.sqrt_lt' (by linarith)]; exact h2
  · intro h
    rw [Real.sqrt_lt' (by linarith), cmp.1] at h
    unfold roundSqrt
    simp only
    rw [← hk, if_pos h]
  · intro h
    rw [Real.lt_sqrt (by linarith), cmp.2] at h
    unfold roundSqrt
    simp only
    rw [← hk, if_neg (not_lt.2 h.le), if_pos h]
  · intro h
    have e : (y : ℝ) = (k + 1 / 2) ^ 2 := by rw [← h, hs]
    have n1 : ¬ y < (k + 1 / 2) ^ 2 := by rw [← cmp.1, e]; exact lt_irrefl _
    have n2 : ¬ (k + 1 / 2) ^ 2 < y := by rw [← cmp.2, e]; exact lt_irrefl _
    unfold roundSqrt
    simp only
    rw [← hk, if_neg n1, if_neg n2]
    split
    · rename_i h0
      exact ⟨.inl rfl, Int.even_iff.2 h0⟩
    · rename_i h0
      refine ⟨.inr rfl, ?_⟩
      rw [Int.even_iff]; omega

theorem roundSqrt_err {y : ℚ} (hy : 0 ≤ y) : |(roundSqrt y : ℝ) - √y| ≤ 1 / 2 := by
  have h1 := Int.floor_le (√(y : ℝ))
  have h2 := Int.lt_floor_add_one (√(y : ℝ))
  rcases le_total (√(y : ℝ)) (⌊√(y : ℝ)⌋ + 1 / 2) with h | h
  · refine (roundSqrt_nearest hy ⌊√(y : ℝ)⌋).1.trans ?_
    rw [abs_of_nonpos (by linarith)]; linarith
  · refine (roundSqrt_nearest hy (⌊√(y : ℝ)⌋ + 1)).1.trans ?_
    push_cast
    rw [abs_of_nonneg (by linarith)]; linarith

namespace Fmt

theorem rzpow_pos (k : ℤ) : (0 : ℝ) < (2 : ℝ) ^ k := zpow_pos (by norm_num) k

/-- scaling of the square root to integers -/
theorem sqrt_scale (f : Fmt) {q : ℚ} (hq : 0 < q) :
    √(((q / ((2 : ℚ) ^ f.sqrtExp q) ^ 2 : ℚ) : ℝ)) * (2 : ℝ) ^ f.sqrtExp q = √(q : ℝ) := by
  have hp := rzpow_pos (f.sqrtExp q)
  push_cast
  rw [Real.sqrt_div (by exact_mod_cast hq.le), Real.sqrt_sq hp.le, div_mul_cancel₀ _ hp.ne']

theorem abs_sqrt_grid (f : Fmt) {q : ℚ} (hq : 0 < q) (j : ℤ) :
    |(j : ℝ) * (2 : ℝ) ^ f.sqrtExp q - √(q : ℝ)| =
      |(j : ℝ) - √(((q / ((2 : ℚ) ^ f.sqrtExp q) ^ 2 : ℚ) : ℝ))| * (2 : ℝ) ^ f.sqrtExp q := by
  have hp := rzpow_pos (f.sqrtExp q)
  rw [← f.sqrt_scale hq, ← sub_mul, abs_mul, abs_of_pos hp]

theorem sqrt_eq (f : Fmt) {q : ℚ} (hq : 0 < q) :
    f.sqrt q = roundSqrt (q / ((2 : ℚ) ^ f.sqrtExp q) ^ 2) * (2 : ℚ) ^ f.sqrtExp q := if_neg hq.ne'

theorem sqrt_cast (f : Fmt) {q : ℚ} (hq : 0 < q) : ((f.sqrt q : ℚ) : ℝ) =
    (roundSqrt (q / ((2 : ℚ) ^ f.sqrtExp q) ^ 2) : ℝ) * (2 : ℝ) ^ f.sqrtExp q := by
  rw [f.sqrt_eq hq]; push_cast; rfl

theorem sqrt_zero (f : Fmt) : f.sqrt 0 = 0 := if_pos rfl

theorem scaled_nonneg (f : Fmt) {q : ℚ} (hq : 0 < q) : 0 ≤ q / ((2 : ℚ) ^ f.sqrtExp q) ^ 2 :=
  div_nonneg hq.le (sq_nonneg _)

theorem sqrt_err (f : Fmt) {q : ℚ} (hq : 0 < q) :
    |(f.sqrt q : ℝ) - √(q : ℝ)| ≤ (2 : ℝ) ^ f.sqrtExp q / 2 := by
  have hp := rzpow_pos (f.sqrtExp q)
  rw [f.sqrt_cast hq, f.abs_sqrt_grid hq]
  have := roundSqrt_err (f.scaled_nonneg hq)
  nlinarith

theorem sqrt_nonneg (f : Fmt) {q : ℚ} (hq : 0 ≤ q) : 0 ≤ f.sqrt q := by
  rcases hq.eq_or_lt with rfl | hq
  · rw [sqrt_zero]
  rw [f.sqrt_eq hq]
  refine mul_nonneg ?_ (two_zpow_pos _).le
  obtain ⟨h0, -, -⟩ := intSqrt_bounds (Int.floor_nonneg.2 (f.scaled_nonneg hq))
  unfold roundSqrt
  simp only
  split_ifs <;> first | exact_mod_cast h0 | (push_cast; have : (0 : ℚ) ≤ _ := Int.cast_nonneg h0; linarith)

/-- `2 ^ ⌊log₂ q / 2⌋ ≤ √q` -/
theorem half_log_le {q : ℚ} (hq : 0 < q) : (2 : ℝ) ^ (Int.log 2 q / 2) ≤ √(q : ℝ) := by
  apply Real.le_sqrt_of_sq_le
  have h := two_zpow_log_le hq.ne'
  rw [abs_of_pos hq] at h
  have h' : (((2 : ℚ) ^ (Int.log 2 q) : ℚ) : ℝ) ≤ q := Rat.cast_le.2 h
  push_cast at h'
  refine le_trans ?_ h'
  rw [← zpow_natCast, ← zpow_mul]
  exact zpow_le_zpow_right₀ (by norm_num) (by push_cast; omega)

theorem sqrt_lt_half_log {q : ℚ} (hq : 0 < q) : √(q : ℝ) < (2 : ℝ) ^ (Int.log 2 q / 2 + 1) := by
  rw [Real.sqrt_lt' (rzpow_pos _)]
  have h := lt_two_zpow_log (x := q)
  rw [abs_of_pos hq] at h
  have h' : (q : ℝ) < (((2 : ℚ) ^ (Int.log 2 q + 1) : ℚ) : ℝ) := Rat.cast_lt.2 h
  push_cast at h'
  refine h'.trans_le ?_
  rw [← zpow_natCast, ← zpow_mul]
  exact zpow_le_zpow_right₀ (by norm_num) (by push_cast; omega)

theorem roundSqrt_nonneg {y : ℚ} (hy : 0 ≤ y) : 0 ≤ roundSqrt y := by
  obtain ⟨h0, -, -⟩ := intSqrt_bounds (Int.floor_nonneg.2 hy)
  unfold roundSqrt
  simp only
  split_ifs <;> omega

theorem roundSqrt_le {y : ℚ} (hy : 0 ≤ y) {n : ℤ} (h : √(y : ℝ) ≤ n) : roundSqrt y ≤ n := by
  by_contra hc
  have h1 : (n : ℝ) + 1 ≤ roundSqrt y := by exact_mod_cast (not_le.1 hc)
  have h2 := (roundSqrt_nearest hy n).1
  rw [abs_of_nonneg (by linarith), abs_of_nonneg (by linarith)] at h2
  linarith

theorem le_roundSqrt {y : ℚ} (hy : 0 ≤ y) {n : ℤ} (h : (n : ℝ) ≤ √(y : ℝ)) : n ≤ roundSqrt y := by
  by_contra hc
  have h1 : (roundSqrt y : ℝ) + 1 ≤ n := by exact_mod_cast (not_le.1 hc)
  have h2 := (roundSqrt_nearest hy n).1
  rw [abs_of_nonpos (by linarith), abs_of_nonpos (by linarith)] at h2
  linarith

theorem sqrt_nearest_grid (f : Fmt) {q : ℚ} (hq : 0 < q) (j : ℤ) :
    |(f.sqrt q : ℝ) - √(q : ℝ)| ≤ |(j : ℝ) * (2 : ℝ) ^ f.sqrtExp q - √(q : ℝ)| ∧
    (|(f.sqrt q : ℝ) - √(q : ℝ)| = |(j : ℝ) * (2 : ℝ) ^ f.sqrtExp q - √(q : ℝ)| →
      j ≠ roundSqrt (q / ((2 : ℚ) ^ f.sqrtExp q) ^ 2) →
      Even (roundSqrt (q / ((2 : ℚ) ^ f.sqrtExp q) ^ 2))) := by
  have hp := rzpow_pos (f.sqrtExp q)
  obtain ⟨h1, h2⟩ := roundSqrt_nearest (f.scaled_nonneg hq) j
  rw [f.sqrt_cast hq, f.abs_sqrt_grid hq, f.abs_sqrt_grid hq]
  exact ⟨mul_le_mul_of_nonneg_right h1 hp.le, fun h => h2 (mul_right_cancel₀ hp.ne' h)⟩

/-- the square root is correctly rounded -/
theorem sqrt_nearestEven (f : Fmt) (hf : 2 ≤ f.prec) {q : ℚ} (hq : 0 ≤ q) :
    NearestEvenReal f.prec f.emin √(q : ℝ) (f.sqrt q) := by
  rcases hq.eq_or_lt with rfl | hq
  · rw [sqrt_zero]
    refine ⟨0, f.emin, ⟨by simp, le_rfl, .inr rfl⟩, by simp, fun m' e' _ => ⟨?_, fun _ _ => Even.zero⟩⟩
    simp only [Rat.cast_zero, Real.sqrt_zero, sub_zero, abs_zero]
    exact abs_nonneg _
  have hp := rzpow_pos (f.sqrtExp q)
  have hy := f.scaled_nonneg hq
  have hmin : f.emin ≤ f.sqrtExp q := le_max_right _ _
  have hle : Int.log 2 q / 2 - (f.prec - 1) ≤ f.sqrtExp q := le_max_left _ _
  have hsc := f.sqrt_scale hq
  have near := f.sqrt_nearest_grid hq
  have heq := f.sqrt_eq hq
  set y := q / ((2 : ℚ) ^ f.sqrtExp q) ^ 2 with hydef
  set z := √(y : ℝ) with hz
  have h0 : 0 ≤ roundSqrt y := roundSqrt_nonneg hy
  have hb1 : roundSqrt y ≤ 2 ^ f.prec := by
    apply roundSqrt_le hy
    have h := sqrt_lt_half_log hq
    rw [← hsc] at h
    have : (2 : ℝ) ^ (Int.log 2 q / 2 + 1) ≤ (2 : ℝ) ^ f.prec * (2 : ℝ) ^ f.sqrtExp q := by
      rw [← zpow_natCast, ← zpow_add₀ (by norm_num)]
      exact zpow_le_zpow_right₀ (by norm_num) (by omega)
    push_cast
    exact le_of_mul_le_mul_right (h.le.trans this) hp
  have hb2 : f.sqrtExp q = f.emin ∨
      (f.sqrtExp q = Int.log 2 q / 2 - (f.prec - 1) ∧ 2 ^ (f.prec - 1) ≤ roundSqrt y) := by
    by_cases hm : f.sqrtExp q = f.emin
    · exact .inl hm
    right
    have hu2 : f.sqrtExp q = Int.log 2 q / 2 - (f.prec - 1) := by
      have : f.sqrtExp q = max (Int.log 2 q / 2 - (f.prec - 1)) f.emin := rfl
      omega
    refine ⟨hu2, ?_⟩
    apply le_roundSqrt hy
    have h := half_log_le hq
    rw [← hsc] at h
    have : (2 : ℝ) ^ (Int.log 2 q / 2) = (2 : ℝ) ^ (f.prec - 1) * (2 : ℝ) ^ f.sqrtExp q := by
      rw [← zpow_natCast, ← zpow_add₀ (by norm_num)]
      congr 1
      push_cast [show 1 ≤ f.prec by omega]
      omega
    rw [this] at h
    push_cast
    exact le_of_mul_le_mul_right h hp
  -- nearest among all floating-point numbers
  have all : ∀ m' e' : ℤ, Canonical f.prec f.emin m' e' →
      |(f.sqrt q : ℝ) - √(q : ℝ)| ≤ |m' * (2 : ℝ) ^ e' - √(q : ℝ)| ∧
      (|(f.sqrt q : ℝ) - √(q : ℝ)| = |m' * (2 : ℝ) ^ e' - √(q : ℝ)| →
        (m' * (2 : ℚ) ^ e' : ℚ) ≠ f.sqrt q → Even (roundSqrt y)) := by
    rintro m' e' ⟨hm', he', -⟩
    by_cases hj : f.sqrtExp q ≤ e'
    · obtain ⟨n, hn⟩ := Int.eq_ofNat_of_zero_le (show 0 ≤ e' - f.sqrtExp q by omega)
      have e1 : e' = n + f.sqrtExp q := by omega
      have hr : (m' : ℝ) * (2 : ℝ) ^ e' = ((m' * 2 ^ n : ℤ) : ℝ) * (2 : ℝ) ^ f.sqrtExp q := by
        rw [e1, zpow_add₀ (by norm_num), zpow_natCast]; push_cast; ring
      have hr' : (m' : ℚ) * (2 : ℚ) ^ e' = ((m' * 2 ^ n : ℤ) : ℚ) * (2 : ℚ) ^ f.sqrtExp q := by
        rw [e1, zpow_add₀ (by norm_num), zpow_natCast]; push_cast; ring
      rw [hr, hr']
      refine ⟨(near _).1, fun h hne => (near _).2 h ?_⟩
      rintro h'
      rw [h', ← heq] at hne
      exact hne rfl
    · rcases hb2 with hb2 | ⟨hu2, hb2⟩
      · omega
      have hl := half_log_le hq
      have hr : (m' : ℝ) * (2 : ℝ) ^ e' < (2 : ℝ) ^ (Int.log 2 q / 2) := by
        have h1 : (m' : ℝ) < 2 ^ f.prec := by exact_mod_cast (abs_lt.1 hm').2
        calc (m' : ℝ) * (2 : ℝ) ^ e' < 2 ^ f.prec * (2 : ℝ) ^ e' :=
              mul_lt_mul_of_pos_right h1 (rzpow_pos e')
          _ = (2 : ℝ) ^ (f.prec + e' : ℤ) := by rw [zpow_add₀ (by norm_num), zpow_natCast]
          _ ≤ _ := zpow_le_zpow_right₀ (by norm_num) (by omega)
      have hg : (2 : ℝ) ^ (Int.log 2 q / 2) = ((2 ^ (f.prec - 1) : ℤ) : ℝ) * (2 : ℝ) ^ f.sqrtExp q := by
        push_cast
        rw [← zpow_natCast, ← zpow_add₀ (by norm_num)]
        congr 1
        push_cast [show 1 ≤ f.prec by omega]
        omega
      have hstrict : |(f.sqrt q : ℝ) - √(q : ℝ)| < |m' * (2 : ℝ) ^ e' - √(q : ℝ)| := by
        refine (near (2 ^ (f.prec - 1))).1.trans_lt ?_
        rw [← hg, abs_of_nonpos (by linarith), abs_of_nonpos (by linarith)]
        linarith
      exact ⟨hstrict.le, fun h => absurd h hstrict.ne⟩
  have hpow : (2 : ℤ) ^ f.prec = 2 * 2 ^ (f.prec - 1) := by rw [← pow_succ']; congr 1; omega
  have hpos : (0 : ℤ) < 2 ^ (f.prec - 1) := by positivity
  rcases hb1.lt_or_eq with hlt | heqp
  · refine ⟨roundSqrt y, f.sqrtExp q, ⟨?_, hmin, ?_⟩, heq, all⟩
    · rwa [abs_of_nonneg h0]
    · rw [abs_of_nonneg h0]
      exact hb2.symm.imp And.right id
  · refine ⟨2 ^ (f.prec - 1), f.sqrtExp q + 1, ⟨?_, by omega, .inl ?_⟩, ?_, fun m' e' h => ?_⟩
    · rw [abs_of_pos hpos]; linarith
    · rw [abs_of_pos hpos]
    · rw [heq, heqp, zpow_add₀ (by norm_num), hpow]; push_cast; ring
    · refine ⟨(all m' e' h).1, fun _ _ => ?_⟩
      have : (2 : ℤ) ^ (f.prec - 1) = 2 * 2 ^ (f.prec - 2) := by rw [← pow_succ']; congr 1; omega
      rw [this]
      exact even_two_mul _

/-- the standard model of rounding errors -/
theorem round_std (f : Fmt) (x : ℚ) :
    |f.round x - x| ≤ (2 : ℚ) ^ (-f.prec : ℤ) * |x| + (2 : ℚ) ^ (f.emin - 1) := by
  by_cases hx : x = 0
  · subst hx
    rw [round_zero]
    have := two_zpow_pos (f.emin - 1)
    simpa using this.le
  refine (f.abs_round_sub_le x).trans ?_
  have hl := two_zpow_log_le hx
  have h1 := two_zpow_pos (-f.prec : ℤ)
  have h2 := two_zpow_pos (f.emin - 1)
  have e : (2 : ℚ) ^ f.ulpExp x / 2 = (2 : ℚ) ^ (f.ulpExp x - 1) := by
    rw [zpow_sub_one₀ (by norm_num)]; ring
  rw [e]
  rcases max_choice (Int.log 2 |x| - (f.prec - 1)) f.emin with h | h
  · have : (2 : ℚ) ^ (f.ulpExp x - 1) = (2 : ℚ) ^ (-f.prec : ℤ) * (2 : ℚ) ^ (Int.log 2 |x|) := by
      rw [← zpow_add₀ (by norm_num)]
      congr 1
      rw [show f.ulpExp x = max (Int.log 2 |x| - (f.prec - 1)) f.emin from rfl, h]; ring
    rw [this]
    have := mul_le_mul_of_nonneg_left hl h1.le
    linarith
  · rw [show f.ulpExp x = max (Int.log 2 |x| - (f.prec - 1)) f.emin from rfl, h]
    have := mul_nonneg h1.le (abs_nonneg x)
    linarith

theorem sqrt_std (f : Fmt) {q : ℚ} (hq : 0 ≤ q) :
    |(f.sqrt q : ℝ) - √(q : ℝ)| ≤
      (2 : ℝ) ^ (-f.prec : ℤ) * √(q : ℝ) + (2 : ℝ) ^ (f.emin - 1) := by
  have h1 := rzpow_pos (-f.prec : ℤ)
  have h2 := rzpow_pos (f.emin - 1)
  rcases hq.eq_or_lt with rfl | hq
  · rw [sqrt_zero]; simpa using h2.le
  refine (f.sqrt_err hq).trans ?_
  have hl := half_log_le hq
  have e : (2 : ℝ) ^ f.sqrtExp q / 2 = (2 : ℝ) ^ (f.sqrtExp q - 1) := by
    rw [zpow_sub_one₀ (by norm_num)]; ring
  rw [e]
  rcases max_choice (Int.log 2 q / 2 - (f.prec - 1)) f.emin with h | h
  · have : (2 : ℝ) ^ (f.sqrtExp q - 1) = (2 : ℝ) ^ (-f.prec : ℤ) * (2 : ℝ) ^ (Int.log 2 q / 2) := by
      rw [← zpow_add₀ (by norm_num)]
      congr 1
      rw [show f.sqrtExp q = max (Int.log 2 q / 2 - (f.prec - 1)) f.emin from rfl, h]; ring
    rw [this]
    have := mul_le_mul_of_nonneg_left hl h1.le
    linarith
  · rw [show f.sqrtExp q = max (Int.log 2 q / 2 - (f.prec - 1)) f.emin from rfl, h]
    have := mul_nonneg h1.le (Real.sqrt_nonneg (q : ℝ))
    linarith

end Fmt

end Mot
