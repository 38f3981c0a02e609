import Verif.Spec.FloatTime
import Verif.Proofs.FloatMotion
import Verif.Proofs.FloatUt
/-!
# Lemmas on differences of `double`s
-/

namespace Mot

open Spec

theorem Spec.IsDouble.grid {x : ℚ} (h : IsDouble x) : ∃ k : ℤ, x = k * (2 : ℚ) ^ (-1074 : ℤ) := by
  obtain ⟨m, e, ⟨-, he, -⟩, rfl, -⟩ := h
  obtain ⟨n, hn⟩ := Fmt.zpow_of_nonneg (k := e - -1074) (by omega)
  refine ⟨m * n, ?_⟩
  push_cast
  rw [← hn, mul_assoc, ← zpow_add₀ (by norm_num)]
  congr 2
  ring

/-- differences of `double`s do not underflow -/
theorem round_grid {x : ℚ} {k : ℤ} (h : x = k * (2 : ℚ) ^ (-1074 : ℤ)) :
    |binary64.round x - x| ≤ |x| / 2 ^ 53 := by
  by_cases h0 : x = 0
  · rw [h0, Fmt.round_zero]; simp
  by_cases hu : binary64.ulpExp x = -1074
  · have e : binary64.round x = x := by
      unfold Fmt.round
      rw [hu, h, mul_div_cancel_right₀ _ (Fmt.two_zpow_pos _).ne', roundHalfEven_intCast]
    rw [e, sub_self, abs_zero]
    positivity
  · have e : binary64.ulpExp x = Int.log 2 |x| - 52 := by
      have : binary64.ulpExp x = max (Int.log 2 |x| - (53 - 1)) (-1074) := rfl
      rw [this] at hu ⊢
      omega
    refine (binary64.abs_round_sub_le x).trans ?_
    have hl := Fmt.two_zpow_log_le h0
    rw [e, zpow_sub₀ (by norm_num)]
    generalize (2 : ℚ) ^ Int.log 2 |x| = a at *
    norm_num
    linarith

theorem double_sub {t s : ℚ} (ht : IsDouble t) (hs : IsDouble s) :
    |binary64.round (t - s) - (t - s)| ≤ |t - s| / 2 ^ 53 := by
  obtain ⟨i, hi⟩ := ht.grid
  obtain ⟨j, hj⟩ := hs.grid
  refine round_grid (k := i - j) ?_
  rw [hi, hj]
  push_cast
  ring

theorem double_sub_zero {t s : ℚ} (ht : IsDouble t) (hs : IsDouble s) :
    (binary64.round (t - s) = 0 ↔ t = s) ∧ (0 < binary64.round (t - s) ↔ s < t) ∧
    (binary64.round (t - s) < 0 ↔ t < s) := by
  have h := double_sub ht hs
  rw [abs_le] at h
  obtain ⟨h1, h2⟩ := h
  rcases lt_trichotomy t s with hlt | rfl | hlt
  · rw [abs_of_neg (sub_neg.2 hlt)] at h1 h2
    have : binary64.round (t - s) < 0 := by norm_num at h2; linarith
    exact ⟨⟨fun h => absurd h this.ne, fun h => absurd h hlt.ne⟩,
      ⟨fun h => absurd h this.not_gt, fun h => absurd h hlt.not_gt⟩, ⟨fun _ => hlt, fun _ => this⟩⟩
  · rw [sub_self, Fmt.round_zero]; simp
  · rw [abs_of_pos (sub_pos.2 hlt)] at h1 h2
    have : 0 < binary64.round (t - s) := by norm_num at h1; linarith
    exact ⟨⟨fun h => absurd h this.ne', fun h => absurd h hlt.ne'⟩, ⟨fun _ => hlt, fun _ => this⟩,
      ⟨fun h => absurd h this.not_gt, fun h => absurd h hlt.not_gt⟩⟩

theorem sterbenz {t s : ℚ} (ht : IsDouble t) (hs : IsDouble s) (h0 : 0 ≤ t) (h1 : t ≤ 2 * s)
    (h2 : s ≤ 2 * t) : binary64.round (t - s) = t - s := by
  obtain ⟨m, e, ⟨hm, he, -⟩, hmt, -⟩ := ht
  obtain ⟨n, f, ⟨hn, hf, -⟩, hns, -⟩ := hs
  have key : ∀ (a b : ℤ) (p q : ℤ), |a| < 2 ^ 53 → p ≤ q → -1074 ≤ p →
      |a * (2 : ℚ) ^ p - b * (2 : ℚ) ^ q| ≤ |a * (2 : ℚ) ^ p| →
      binary64.round (a * (2 : ℚ) ^ p - b * (2 : ℚ) ^ q) = a * (2 : ℚ) ^ p - b * (2 : ℚ) ^ q := by
    intro a b p q ha hpq hp hle
    obtain ⟨k, hk⟩ := Fmt.zpow_of_nonneg (k := q - p) (by omega)
    have e1 : a * (2 : ℚ) ^ p - b * (2 : ℚ) ^ q = ((a - b * k : ℤ) : ℚ) * (2 : ℚ) ^ p := by
      have : (2 : ℚ) ^ q = k * (2 : ℚ) ^ p := by
        rw [← hk, ← zpow_add₀ (by norm_num)]; congr 1; ring
      rw [this]; push_cast; ring
    rw [e1] at hle ⊢
    refine binary64.round_exact ?_ hp
    rw [abs_mul, abs_mul, mul_le_mul_iff_left₀ (abs_pos.2 (Fmt.two_zpow_pos p).ne')] at hle
    have : |a - b * k| ≤ |a| := by exact_mod_cast hle
    exact this.trans_lt ha
  have hs0 : 0 ≤ s := by linarith
  have hd1 : |t - s| ≤ |t| := by
    rw [abs_of_nonneg h0, abs_le]; constructor <;> linarith
  have hd2 : |s - t| ≤ |s| := by
    rw [abs_of_nonneg hs0, abs_le]; constructor <;> linarith
  rcases le_total e f with hef | hef
  · have := key m n e f hm hef he (by rw [← hmt, ← hns]; exact hd1)
    rwa [← hmt, ← hns] at this
  · have := key n m f e hn hef hf (by rw [← hmt, ← hns]; exact hd2)
    rw [← hmt, ← hns] at this
    rw [← neg_sub, Fmt.round_neg, this]

theorem double_sub_fin {t s : ℚ} (ht : IsDouble t) (hs : IsDouble s) (h0 : 0 ≤ t) (h1 : 0 ≤ s) :
    FP.ofRat binary64 (t - s) = .fin (binary64.round (t - s)) := by
  unfold FP.ofRat
  rw [if_pos]
  rw [binary64.abs_round]
  have hlt : ∀ x, IsDouble x → 0 ≤ x → |t - s| ≤ x → binary64.round |t - s| < (2 : ℚ) ^ binary64.emax := by
    intro x hx hx0 hle
    refine (binary64.round_mono (by decide) (abs_nonneg _) hle).trans_lt ?_
    rw [hx.round]
    obtain ⟨_, _, -, -, h⟩ := hx
    rwa [abs_of_nonneg hx0] at h
  rcases le_total t s with h | h
  · exact hlt s hs h1 (by rw [abs_of_nonpos (by linarith)]; linarith)
  · exact hlt t ht h0 (by rw [abs_of_nonneg (by linarith)]; linarith)

end Mot
