import Verif.Model.FloatMotion
import Verif.Spec.FloatMotion
import Verif.Proofs.FloatRound
import Verif.Proofs.Motion
import Mathlib.Analysis.SpecialFunctions.Trigonometric.Bounds
/-!
# Lemmas on prediction in floating-point arithmetic
-/

namespace Mot

open Spec

/-! ### `double`s -/

theorem b64_emax : (2 : ℚ) ^ binary64.emax = (2 : ℚ) ^ (1024 : ℤ) := rfl

theorem Spec.IsDouble.round {x : ℚ} (h : IsDouble x) : binary64.round x = x := by
  obtain ⟨m, e, ⟨hm, he, -⟩, rfl, -⟩ := h
  exact binary64.round_exact hm he

theorem Spec.IsDouble.ofRat {x : ℚ} (h : IsDouble x) : FP.ofRat binary64 x = .fin x := by
  unfold FP.ofRat
  rw [h.round, if_pos]
  obtain ⟨_, _, -, -, h⟩ := h
  exact h

theorem isDouble_round {w : ℚ} (h : |binary64.round w| < (2 : ℚ) ^ (1024 : ℤ)) :
    IsDouble (binary64.round w) := by
  obtain ⟨m, e, hc, hv, -⟩ := binary64.round_nearestEven (by decide) w
  exact ⟨m, e, hc, hv, h⟩

theorem isDouble_of_ofRat {w q : ℚ} (h : FP.ofRat binary64 w = .fin q) : IsDouble q := by
  unfold FP.ofRat at h
  split_ifs at h with hlt
  simp only [FP.fin.injEq] at h
  subst h
  exact isDouble_round hlt

theorem isDouble_zero : IsDouble 0 :=
  ⟨0, -1074, ⟨by simp, le_rfl, .inr rfl⟩, by simp, by rw [abs_zero]; exact Fmt.two_zpow_pos _⟩

/-- the result of rounding is at least as near as any `double` -/
theorem Spec.IsDouble.nearest {x : ℚ} (h : IsDouble x) (w : ℚ) :
    |binary64.round w - w| ≤ |x - w| := by
  obtain ⟨m, e, hc, rfl, -⟩ := h
  obtain ⟨_, _, -, -, hn⟩ := binary64.round_nearestEven (by decide) w
  exact (hn m e hc).1

/-- numbers with 53 bits -/
def Bits53 (x : ℚ) : Prop := ∃ m e : ℤ, |m| < 2 ^ 53 ∧ x = m * (2 : ℚ) ^ e

theorem Spec.IsDouble.bits {x : ℚ} (h : IsDouble x) : Bits53 x := by
  obtain ⟨m, e, ⟨hm, -, -⟩, h, -⟩ := h
  exact ⟨m, e, hm, h⟩

theorem bits_round (w : ℚ) : Bits53 (binary64.round w) := by
  obtain ⟨m, e, ⟨hm, -, -⟩, hv, -⟩ := binary64.round_nearestEven (by decide) w
  exact ⟨m, e, hm, hv⟩

/-- large `double`s are multiples of powers of two -/
theorem Bits53.multiple {x : ℚ} (h : Bits53 x) {s : ℤ} (hs : (2 : ℚ) ^ s ≤ |x|) :
    ∃ j : ℤ, x = j * (2 : ℚ) ^ (s - 52) := by
  obtain ⟨m, e, hm, rfl⟩ := h
  have he : s - 52 ≤ e := by
    rw [abs_mul, abs_of_pos (Fmt.two_zpow_pos e)] at hs
    have h1 : |(m : ℚ)| < 2 ^ 53 := by exact_mod_cast hm
    have h2 : (2 : ℚ) ^ s < 2 ^ (53 + e) := by
      rw [zpow_add₀ (by norm_num)]
      refine hs.trans_lt (mul_lt_mul_of_pos_right ?_ (Fmt.two_zpow_pos e))
      exact_mod_cast h1
    have := (zpow_lt_zpow_iff_right₀ (by norm_num : (1 : ℚ) < 2)).1 h2
    omega
  obtain ⟨n, hn⟩ := Fmt.zpow_of_nonneg (k := e - (s - 52)) (by omega)
  refine ⟨m * n, ?_⟩
  push_cast
  rw [← hn, mul_assoc, ← zpow_add₀ (by norm_num)]
  congr 2
  ring

/-- distinct `double`s differ by a relative amount -/
theorem Bits53.gap {x y : ℚ} (hx : Bits53 x) (hy : Bits53 y) (hne : x ≠ y) :
    |x| / 2 ^ 55 ≤ |x - y| := by
  by_cases h0 : x = 0
  · subst h0; simp
  by_cases hfar : |x| / 2 ≤ |x - y|
  · refine le_trans ?_ hfar
    have := abs_nonneg x
    norm_num
    linarith
  push Not at hfar
  have hy' : |x| / 2 ≤ |y| := by
    have := abs_sub_abs_le_abs_sub x y
    linarith
  have hpos : 0 < |x| := abs_pos.2 h0
  have hx2 : x / 2 ≠ 0 := by simpa using h0
  have hl := Fmt.two_zpow_log_le hx2
  have hu := Fmt.lt_two_zpow_log (x := x / 2)
  have ea : |x / 2| = |x| / 2 := by rw [abs_div]; norm_num
  rw [ea] at hl hu
  generalize Int.log 2 (|x| / 2) = s at *
  obtain ⟨i, hi⟩ := hx.multiple (s := s) (by linarith)
  obtain ⟨j, hj⟩ := hy.multiple (s := s) (by linarith)
  have hp := Fmt.two_zpow_pos (s - 52)
  have hij : (1 : ℚ) ≤ |((i - j : ℤ) : ℚ)| := by
    have : i - j ≠ 0 := by
      intro h
      apply hne
      rw [hi, hj, show i = j by omega]
    exact_mod_cast Int.one_le_abs this
  have e : x - y = ((i - j : ℤ) : ℚ) * (2 : ℚ) ^ (s - 52) := by
    rw [hi, hj]; push_cast; ring
  rw [e, abs_mul, abs_of_pos hp]
  have e2 : (2 : ℚ) ^ (s + 1) = 2 ^ 53 * (2 : ℚ) ^ (s - 52) := by
    rw [show s + 1 = 53 + (s - 52) by ring, zpow_add₀ (by norm_num)]; rfl
  rw [e2] at hu
  generalize |((i - j : ℤ) : ℚ)| = c at *
  norm_num at hu ⊢
  nlinarith

/-- adding a number that is too small has no effect -/
theorem Spec.IsDouble.absorb {a d : ℚ} (ha : IsDouble a) (hd : |d| < |a| / 2 ^ 56) :
    FP.ofRat binary64 (a + d) = .fin a := by
  have hr : binary64.round (a + d) = a := by
    by_contra hne
    have h1 := ha.nearest (a + d)
    rw [sub_add_cancel_left, abs_neg] at h1
    have h2 : |a - binary64.round (a + d)| ≤ 2 * |d| := by
      have := abs_sub_le a (a + d) (binary64.round (a + d))
      rw [sub_add_cancel_left, abs_neg, abs_sub_comm (a + d)] at this
      linarith
    have h4 := ha.bits.gap (bits_round _) (Ne.symm hne)
    norm_num at *
    linarith
  unfold FP.ofRat
  rw [hr, if_pos]
  obtain ⟨_, _, -, -, h⟩ := ha
  exact h

/-- comparison with zero, as the code does it -/
theorem unitsEqF_zero {w : ℚ} (hw : IsDouble w) :
    unitsEqF (.fin w) (.fin 0) = decide (|w| < (2 : ℚ) ^ (-1022 : ℤ)) := by
  have e1 : FP.add binary64 (.fin w) (.fin 0) = .fin w := by
    show FP.ofRat binary64 (w + 0) = _
    rw [add_zero, hw.ofRat]
  have e2 : FP.sub binary64 (.fin w) (.fin 0) = .fin w := by
    show FP.ofRat binary64 (w - 0) = _
    rw [sub_zero, hw.ofRat]
  have e3 : binary64.round |w| = |w| := by rw [← Fmt.abs_round, hw.round]
  have hb : |w| < (2 : ℚ) ^ (1024 : ℤ) := by
    obtain ⟨_, _, -, -, h⟩ := hw
    exact h
  have e4 : FP.gt (FP.mul binary64 (.fin (1 / 2 ^ 52)) (.fin |w|)) (.fin |w|) = false := by
    show FP.gt (FP.ofRat binary64 (1 / 2 ^ 52 * |w|)) (.fin |w|) = false
    have h0 := abs_nonneg w
    have h1 : binary64.round (1 / 2 ^ 52 * |w|) ≤ |w| := by
      have := binary64.round_mono_all (by decide) (show 1 / 2 ^ 52 * |w| ≤ |w| by
        norm_num; linarith)
      rwa [e3] at this
    have h2 : 0 ≤ binary64.round (1 / 2 ^ 52 * |w|) := binary64.round_nonneg (by positivity)
    unfold FP.ofRat
    rw [if_pos (by rw [abs_of_nonneg h2]; exact h1.trans_lt hb)]
    exact decide_eq_false (not_lt.2 h1)
  unfold unitsEqF
  rw [e1, e2]
  show (FP.gt (FP.mul binary64 (.fin (1 / 2 ^ 52)) (.fin |w|)) (.fin |w|) ||
    FP.gt (.fin ((2 : ℚ) ^ (-1022 : ℤ))) (.fin |w|)) = _
  rw [e4, Bool.false_or]
  rfl

section
variable {m : Libm}

theorem CtrvStateF.next_turn {s : CtrvStateF m} {w : ℚ} (hw : IsDouble w)
    (h : s.yawRate = .fin w) (hw' : (2 : ℚ) ^ (-1022 : ℤ) ≤ |w|) (dt : FP) :
    (s.next dt).x = FP.add binary64 s.x (FP.mul binary64 (FP.mul binary64
      (FP.div binary64 s.v s.yawRate) (FP.sub binary64 (m.sin (FP.add binary64 (m.getAngle s.yaw)
        (FP.mul binary64 s.yawRate dt))) (m.sin (m.getAngle s.yaw)))) (.fin 1)) ∧
    (s.next dt).y = FP.sub binary64 s.y (FP.mul binary64 (FP.mul binary64
      (FP.div binary64 s.v s.yawRate) (FP.sub binary64 (m.cos (FP.add binary64 (m.getAngle s.yaw)
        (FP.mul binary64 s.yawRate dt))) (m.cos (m.getAngle s.yaw)))) (.fin 1)) := by
  have : unitsEqF s.yawRate (.fin 0) = false := by
    rw [h, unitsEqF_zero hw]
    exact decide_eq_false (not_lt.2 hw')
  unfold CtrvStateF.next
  simp only [this]
  exact ⟨rfl, rfl⟩

theorem CtrvStateF.next_straight {s : CtrvStateF m} {w : ℚ} (hw : IsDouble w)
    (h : s.yawRate = .fin w) (hw' : |w| < (2 : ℚ) ^ (-1022 : ℤ)) (dt : FP) :
    (s.next dt).x = FP.add binary64 s.x (FP.mul binary64 (FP.mul binary64 s.v
      (m.cos (m.getAngle s.yaw))) dt) ∧
    (s.next dt).y = FP.add binary64 s.y (FP.mul binary64 (FP.mul binary64 s.v
      (m.sin (m.getAngle s.yaw))) dt) := by
  have : unitsEqF s.yawRate (.fin 0) = true := by
    rw [h, unitsEqF_zero hw]
    exact decide_eq_true hw'
  unfold CtrvStateF.next
  simp only [this]
  exact ⟨rfl, rfl⟩

end

/-! ### Accuracy -/

theorem b64_cast (x : ℚ) :
    |((binary64.round x : ℚ) : ℝ) - (x : ℝ)| ≤ |(x : ℝ)| / 2 ^ 53 + 1 / 2 ^ 200 := by
  have h : ((|binary64.round x - x| : ℚ) : ℝ) ≤ ((|x| / 2 ^ 53 + 1 / 2 ^ 200 : ℚ) : ℝ) :=
    Rat.cast_le.2 (b64_std x)
  push_cast at h
  exact h

/-- the heading after the turn -/
theorem heading_err {a δ Δ y : ℝ} (ha : |a| ≤ 7)
    (h1 : |δ - Δ| ≤ |Δ| / 2 ^ 53 + 1 / 2 ^ 200)
    (h2 : |y - (a + δ)| ≤ |a + δ| / 2 ^ 53 + 1 / 2 ^ 200) :
    |y - (a + Δ)| ≤ (8 + 3 * |Δ|) / 2 ^ 53 := by
  have h3 := abs_add_le (y - (a + δ)) (δ - Δ)
  rw [show y - (a + δ) + (δ - Δ) = y - (a + Δ) by ring] at h3
  have h4 := abs_add_le a δ
  have h5 := abs_add_le (δ - Δ) Δ
  rw [sub_add_cancel] at h5
  have := abs_nonneg Δ
  generalize |y - (a + Δ)| = A at *
  generalize |y - (a + δ)| = B at *
  generalize |δ - Δ| = C at *
  generalize |a + δ| = E at *
  generalize |a| = F at *
  generalize |δ| = G at *
  generalize |Δ| = H at *
  norm_num at *
  linarith

/-- quotient times difference of sines -/
theorem turn_term {q Q D s₁ s₀ S₁ S₀ r r' Θ : ℝ} (hΘ : 0 ≤ Θ) (hΘ' : Θ ≤ 2 ^ 19)
    (hq : |q - Q| ≤ |Q| / 2 ^ 53 + 1 / 2 ^ 200)
    (hD : |D - (s₁ - s₀)| ≤ |s₁ - s₀| / 2 ^ 53 + 1 / 2 ^ 200)
    (h1 : |s₁ - S₁| ≤ 1 / 2 ^ 52 + (8 + 3 * Θ) / 2 ^ 53) (h0 : |s₀ - S₀| ≤ 1 / 2 ^ 52)
    (hS1 : |S₁| ≤ 1) (hS0 : |S₀| ≤ 1)
    (hr : |r - q * D| ≤ |q * D| / 2 ^ 53 + 1 / 2 ^ 200)
    (hr' : |r' - r| ≤ |r| / 2 ^ 53 + 1 / 2 ^ 200) :
    |r' - Q * (S₁ - S₀)| ≤ (28 * |Q| + 3 * (|Q| * Θ)) / 2 ^ 53 + 1 / 2 ^ 196 ∧
    |r'| ≤ 4 * |Q| + 1 / 2 ^ 190 := by
  have e1 : |s₁ - s₀| ≤ 21 / 10 := by
    have a1 := abs_add_le (s₁ - S₁) S₁
    have a2 := abs_add_le (s₀ - S₀) S₀
    have a3 := abs_sub s₁ s₀
    rw [sub_add_cancel] at a1 a2
    norm_num at *
    linarith
  have e2 : |D - (S₁ - S₀)| ≤ (15 + 3 * Θ) / 2 ^ 53 := by
    have a1 := abs_add_le (D - (s₁ - s₀)) ((s₁ - S₁) - (s₀ - S₀))
    rw [show D - (s₁ - s₀) + ((s₁ - S₁) - (s₀ - S₀)) = D - (S₁ - S₀) by ring] at a1
    have a2 := abs_sub (s₁ - S₁) (s₀ - S₀)
    norm_num at *
    linarith
  have e3 : |D| ≤ 3 := by
    have a1 := abs_add_le (D - (S₁ - S₀)) (S₁ - S₀)
    rw [sub_add_cancel] at a1
    have a2 := abs_sub S₁ S₀
    norm_num at *
    linarith
  have e4 : |q * D - Q * (S₁ - S₀)| ≤ (18 * |Q| + 3 * (|Q| * Θ)) / 2 ^ 53 + 3 / 2 ^ 200 := by
    have a1 := abs_add_le ((q - Q) * D) (Q * (D - (S₁ - S₀)))
    rw [show (q - Q) * D + Q * (D - (S₁ - S₀)) = q * D - Q * (S₁ - S₀) by ring, abs_mul,
      abs_mul] at a1
    have a2 : |q - Q| * |D| ≤ (|Q| / 2 ^ 53 + 1 / 2 ^ 200) * 3 :=
      mul_le_mul hq e3 (abs_nonneg _) (by positivity)
    have a3 : |Q| * |D - (S₁ - S₀)| ≤ |Q| * ((15 + 3 * Θ) / 2 ^ 53) :=
      mul_le_mul_of_nonneg_left e2 (abs_nonneg _)
    refine a1.trans ((add_le_add a2 a3).trans (le_of_eq ?_))
    ring
  have e5 : |q * D| ≤ 3 * (|Q| + |Q| / 2 ^ 53 + 1 / 2 ^ 200) := by
    have a1 := abs_add_le (q - Q) Q
    rw [sub_add_cancel] at a1
    rw [abs_mul, mul_comm]
    exact mul_le_mul e3 (by linarith) (abs_nonneg _) (by norm_num)
  have hQ := abs_nonneg Q
  have hQT : 0 ≤ |Q| * Θ := mul_nonneg hQ hΘ
  have b1 := abs_add_le (r - q * D) (q * D)
  rw [sub_add_cancel] at b1
  have b2 := abs_add_le (r' - r) r
  rw [sub_add_cancel] at b2
  have b3 := abs_add_le ((r' - r) + (r - q * D)) (q * D - Q * (S₁ - S₀))
  rw [show (r' - r) + (r - q * D) + (q * D - Q * (S₁ - S₀)) = r' - Q * (S₁ - S₀) by ring] at b3
  have b4 := abs_add_le (r' - r) (r - q * D)
  clear hq hD h1 h0 hS1 hS0 e1 e2 e3
  generalize |r' - Q * (S₁ - S₀)| = A1 at *
  generalize |(r' - r) + (r - q * D)| = A2 at *
  generalize |q * D - Q * (S₁ - S₀)| = A3 at *
  generalize |r' - r| = A4 at *
  generalize |r - q * D| = A5 at *
  generalize |q * D| = A6 at *
  generalize |r| = A7 at *
  generalize |r'| = A8 at *
  generalize |Q| * Θ = A9 at *
  generalize |Q| = A10 at *
  clear hΘ hΘ'
  norm_num at *
  constructor <;> linarith

theorem unitsEq_rat (w : ℚ) : unitsEq (w : ℝ) 0 ↔ |w| < (2 : ℚ) ^ (-1022 : ℤ) := by
  unfold unitsEq dblEpsilon dblMin
  rw [sub_zero, add_zero]
  have h1 : ¬ |(w : ℝ)| < 1 / 2 ^ 52 * |(w : ℝ)| := by
    have := abs_nonneg (w : ℝ)
    norm_num
    linarith
  have e : ((((2 : ℚ) ^ (-1022 : ℤ)) : ℚ) : ℝ) = 1 / 2 ^ 1022 := by
    rw [Rat.cast_zpow, show (-1022 : ℤ) = -((1022 : ℕ) : ℤ) from rfl, zpow_neg, zpow_natCast, one_div]
    rfl
  rw [or_iff_right h1, ← e, ← Rat.cast_abs, Rat.cast_lt]

/-- rounding at most doubles -/
theorem abs_b64_le {x B : ℚ} (h : |x| ≤ B) (hB : 1 ≤ B) : |binary64.round x| ≤ 2 * B := by
  have h1 := b64_std x
  have h2 := abs_add_le (binary64.round x - x) x
  rw [sub_add_cancel] at h2
  norm_num at *
  linarith

/-- the quotient, the difference and the product of the turning branch, evaluated -/
theorem turn_fin {v w a dt : ℚ} (hw : w ≠ 0) (hQ : |v / w| ≤ 2 ^ 200)
    (hΘ : |w * dt| ≤ 2 ^ 19) (ha : |a| ≤ 7) {f : FP → FP} {F : ℝ → ℝ}
    (hF : ∀ x y, |F x - F y| ≤ |x - y|) (hF1 : ∀ x, |F x| ≤ 1)
    (hf : ∀ q : ℚ, |q| ≤ 2 ^ 21 → ∃ s : ℚ, f (.fin q) = .fin s ∧ |(s : ℝ) - F q| ≤ 1 / 2 ^ 52) :
    ∃ r : ℚ, FP.mul binary64 (FP.mul binary64 (FP.div binary64 (.fin v) (.fin w))
      (FP.sub binary64 (f (FP.add binary64 (.fin a) (FP.mul binary64 (.fin w) (.fin dt))))
        (f (.fin a)))) (.fin 1) = .fin r ∧
      |(r : ℝ) - v / w * (F (a + w * dt) - F a)| ≤
        (28 * |(v / w : ℝ)| + 3 * (|(v / w : ℝ)| * |(w * dt : ℝ)|)) / 2 ^ 53 + 1 / 2 ^ 196 ∧
      |(r : ℝ)| ≤ 4 * |(v / w : ℝ)| + 1 / 2 ^ 190 := by
  have b1 := abs_b64_le hΘ (by norm_num)
  have e1 : FP.mul binary64 (.fin w) (.fin dt) = .fin (binary64.round (w * dt)) :=
    b64_ofRat (hΘ.trans (by norm_num))
  have b2 : |a + binary64.round (w * dt)| ≤ 2 ^ 20 + 7 := by
    refine (abs_add_le _ _).trans ?_
    norm_num at *
    linarith
  have b2' : |binary64.round (a + binary64.round (w * dt))| ≤ 2 ^ 20 + 8 := by
    have h1 := b64_std (a + binary64.round (w * dt))
    have h2 := abs_add_le (binary64.round (a + binary64.round (w * dt)) -
      (a + binary64.round (w * dt))) (a + binary64.round (w * dt))
    rw [sub_add_cancel] at h2
    norm_num at *
    linarith
  have e2 : FP.add binary64 (.fin a) (.fin (binary64.round (w * dt))) =
      .fin (binary64.round (a + binary64.round (w * dt))) :=
    b64_ofRat (b2.trans (by norm_num))
  obtain ⟨s₁, f1, g1⟩ := hf _ (b2'.trans (by norm_num))
  obtain ⟨s₀, f0, g0⟩ := hf a (ha.trans (by norm_num))
  have hs : ∀ {s y : ℚ}, |(s : ℝ) - F y| ≤ 1 / 2 ^ 52 → |s| ≤ 2 := by
    intro s y h
    have h1 := abs_add_le ((s : ℝ) - F y) (F y)
    rw [sub_add_cancel] at h1
    have h2 := hF1 y
    have h3 : |(s : ℝ)| ≤ 2 := by
      norm_num at h
      linarith
    exact_mod_cast h3
  have b3 : |s₁ - s₀| ≤ 4 := (abs_sub _ _).trans (by linarith [hs g1, hs g0])
  have e3 : FP.sub binary64 (.fin s₁) (.fin s₀) = .fin (binary64.round (s₁ - s₀)) :=
    b64_ofRat (b3.trans (by norm_num))
  have b3' := abs_b64_le b3 (by norm_num)
  have e4 : FP.div binary64 (.fin v) (.fin w) = .fin (binary64.round (v / w)) := by
    show (if w = 0 then _ else _) = _
    rw [if_neg hw]
    exact b64_ofRat (hQ.trans (by norm_num))
  have b4 := abs_b64_le hQ (by norm_num)
  have b5 : |binary64.round (v / w) * binary64.round (s₁ - s₀)| ≤ 2 ^ 205 := by
    rw [abs_mul]
    refine (mul_le_mul b4 b3' (abs_nonneg _) (by norm_num)).trans ?_
    norm_num
  have e5 : FP.mul binary64 (.fin (binary64.round (v / w))) (.fin (binary64.round (s₁ - s₀))) =
      .fin (binary64.round (binary64.round (v / w) * binary64.round (s₁ - s₀))) :=
    b64_ofRat (b5.trans (by norm_num))
  have b6 := abs_b64_le b5 (by norm_num)
  have e6 : FP.mul binary64
      (.fin (binary64.round (binary64.round (v / w) * binary64.round (s₁ - s₀)))) (.fin 1) =
      .fin (binary64.round (binary64.round (binary64.round (v / w) * binary64.round (s₁ - s₀)))) := by
    show FP.ofRat binary64 (_ * 1) = _
    rw [mul_one]
    exact b64_ofRat (b6.trans (by norm_num))
  refine ⟨_, by rw [e1, e2, f1, f0, e3, e4, e5, e6], ?_⟩
  have hy := heading_err (a := (a : ℝ)) (Δ := (w : ℝ) * dt) (δ := (binary64.round (w * dt) : ℚ))
    (y := (binary64.round (a + binary64.round (w * dt)) : ℚ)) (by exact_mod_cast ha)
    (by simpa using b64_cast (w * dt)) (by simpa using b64_cast (a + binary64.round (w * dt)))
  refine turn_term (abs_nonneg _) (by exact_mod_cast hΘ) (by simpa using b64_cast (v / w))
    (by simpa using b64_cast (s₁ - s₀)) ?_ g0 (hF1 _) (hF1 _)
    (by simpa using b64_cast (binary64.round (v / w) * binary64.round (s₁ - s₀)))
    (by simpa using b64_cast (binary64.round (binary64.round (v / w) * binary64.round (s₁ - s₀))))
  have h1 := abs_sub_le (s₁ : ℝ) (F (binary64.round (a + binary64.round (w * dt)) : ℚ))
    (F (a + w * dt))
  have h2 := hF (binary64.round (a + binary64.round (w * dt)) : ℚ) (a + w * dt)
  linarith

/-- adding the displacement -/
theorem sum_err {x r R A B ε ε' X : ℝ} (hX : |X - (x + r)| ≤ |x + r| / 2 ^ 53 + 1 / 2 ^ 200)
    (hr : |r - R| ≤ A + ε) (hr' : |r| ≤ B + ε') :
    |X - (x + R)| ≤ |x| / 2 ^ 53 + (A + B / 2 ^ 53) + (ε + ε' / 2 ^ 53 + 1 / 2 ^ 200) := by
  have h1 := abs_add_le (X - (x + r)) (r - R)
  rw [show X - (x + r) + (r - R) = X - (x + R) by ring] at h1
  have h2 := abs_add_le x r
  generalize |X - (x + R)| = a1 at *
  generalize |X - (x + r)| = a2 at *
  generalize |x + r| = a3 at *
  generalize |r - R| = a4 at *
  generalize |x| = a5 at *
  generalize |r| = a6 at *
  norm_num at *
  linarith

theorem add_fin {x r : ℚ} (hx : |x| ≤ 2 ^ 200) (hr : |r| ≤ 2 ^ 210) :
    FP.add binary64 (.fin x) (.fin r) = .fin (binary64.round (x + r)) ∧
    FP.sub binary64 (.fin x) (.fin r) = .fin (binary64.round (x - r)) := by
  constructor
  · refine b64_ofRat ((abs_add_le _ _).trans ?_)
    norm_num at *
    linarith
  · refine b64_ofRat ((abs_sub _ _).trans ?_)
    norm_num at *
    linarith

/-- speed times cosine times time, evaluated -/
theorem straight_fin {v dt c : ℚ} {C : ℝ} (hv : |v| ≤ 2 ^ 100) (hdt : |dt| ≤ 2 ^ 100)
    (hC : |C| ≤ 1) (hc : |(c : ℝ) - C| ≤ 1 / 2 ^ 52) :
    ∃ r : ℚ, FP.mul binary64 (FP.mul binary64 (.fin v) (.fin c)) (.fin dt) = .fin r ∧
      |(r : ℝ) - v * C * dt| ≤ 5 * |(v * dt : ℝ)| / 2 ^ 53 + 1 / 2 ^ 98 ∧
      |(r : ℝ)| ≤ 2 * |(v * dt : ℝ)| + 1 / 2 ^ 98 := by
  have hc2 : |(c : ℝ)| ≤ 1 + 1 / 2 ^ 52 := by
    have h1 := abs_add_le ((c : ℝ) - C) C
    rw [sub_add_cancel] at h1
    linarith
  have hc2' : |c| ≤ 2 := by
    have : |(c : ℝ)| ≤ 2 := hc2.trans (by norm_num)
    exact_mod_cast this
  have b1 : |v * c| ≤ 2 ^ 101 := by
    rw [abs_mul]
    exact (mul_le_mul hv hc2' (abs_nonneg _) (by norm_num)).trans (by norm_num)
  have b1' := abs_b64_le b1 (by norm_num)
  have b2 : |binary64.round (v * c) * dt| ≤ 2 ^ 202 := by
    rw [abs_mul]
    exact (mul_le_mul b1' hdt (abs_nonneg _) (by norm_num)).trans (by norm_num)
  have e1 : FP.mul binary64 (.fin v) (.fin c) = .fin (binary64.round (v * c)) :=
    b64_ofRat (b1.trans (by norm_num))
  have e2 : FP.mul binary64 (.fin (binary64.round (v * c))) (.fin dt) =
      .fin (binary64.round (binary64.round (v * c) * dt)) := b64_ofRat (b2.trans (by norm_num))
  refine ⟨_, by rw [e1, e2], ?_⟩
  have h1 := b64_cast (v * c)
  have h2 := b64_cast (binary64.round (v * c) * dt)
  push_cast at h1 h2
  generalize ((binary64.round (v * c) : ℚ) : ℝ) = p at *
  generalize ((binary64.round (binary64.round (v * c) * dt) : ℚ) : ℝ) = r at *
  have hdt' : |(dt : ℝ)| ≤ 2 ^ 100 := by exact_mod_cast hdt
  have e3 : |p - v * C| ≤ 7 / 2 * |(v : ℝ)| / 2 ^ 53 + 1 / 2 ^ 200 := by
    have a1 := abs_add_le (p - v * c) (v * (c - C))
    rw [show p - v * c + v * (c - C) = p - v * C by ring, abs_mul] at a1
    have a2 : |(v : ℝ)| * |(c : ℝ) - C| ≤ |(v : ℝ)| * (1 / 2 ^ 52) :=
      mul_le_mul_of_nonneg_left hc (abs_nonneg _)
    have a3 : |(v * c : ℝ)| ≤ |(v : ℝ)| * (1 + 1 / 2 ^ 52) := by
      rw [abs_mul]; exact mul_le_mul_of_nonneg_left hc2 (abs_nonneg _)
    have := abs_nonneg (v : ℝ)
    generalize |(v : ℝ)| * |(c : ℝ) - C| = z1 at *
    generalize |(v : ℝ)| = z2 at *
    norm_num at *
    linarith
  have e4 : |p * dt - v * C * dt| ≤ 7 / 2 * |(v * dt : ℝ)| / 2 ^ 53 + 1 / 2 ^ 100 := by
    rw [← sub_mul, abs_mul, abs_mul]
    refine (mul_le_mul_of_nonneg_right e3 (abs_nonneg _)).trans ?_
    have : 1 / 2 ^ 200 * |(dt : ℝ)| ≤ 1 / 2 ^ 100 := by
      norm_num at *
      linarith
    linarith
  have e5 : |v * C * dt| ≤ |(v * dt : ℝ)| := by
    rw [show v * C * dt = v * dt * C by ring, abs_mul]
    exact mul_le_of_le_one_right (abs_nonneg _) hC
  have a1 := abs_add_le (r - p * dt) (p * dt - v * C * dt)
  rw [sub_add_sub_cancel] at a1
  have a2 := abs_add_le (p * dt - v * C * dt) (v * C * dt)
  rw [sub_add_cancel] at a2
  have a3 := abs_add_le (r - v * C * dt) (v * C * dt)
  rw [sub_add_cancel] at a3
  have := abs_nonneg (v * dt : ℝ)
  clear e3 h1 hc2 hc hC hdt'
  generalize |r - v * C * dt| = z1 at *
  generalize |r - p * dt| = z2 at *
  generalize |p * dt - v * C * dt| = z3 at *
  generalize |p * (dt : ℝ)| = z4 at *
  generalize |v * C * dt| = z5 at *
  generalize |(v * dt : ℝ)| = z6 at *
  generalize |r| = z7 at *
  clear b1 b1' b2 hv hdt hc2'
  norm_num at *
  constructor <;> linarith

end Mot
