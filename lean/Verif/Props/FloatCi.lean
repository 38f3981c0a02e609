import Verif.Proofs.FloatCi
import Verif.Props.FloatFusing
import Verif.Model.Fusing
import Mathlib.LinearAlgebra.Matrix.NonsingularInverse
/-!
# Fusing as it is computed: accuracy for diagonal covariances (C98)
-/

namespace Mot.Props

open Mot Spec Matrix

variable {m : Libm}

/-! ### The exact result -/

section
variable {n : ℕ}

/-- C98: for diagonal inverse covariances the weight in exact arithmetic is `ciWeight`. -/
theorem C98_exact_weight {a b : Fin n → ℚ} (ha : ∀ i, 0 < a i) (hb : ∀ i, 0 < b i) :
    generateWeight (diagonal fun i => (a i : ℝ)) (diagonal fun i => (b i : ℝ)) =
      some ((ciWeight a b : ℚ) : ℝ) := by
  unfold generateWeight ciWeight
  rw [diagonal_add, det_diagonal, det_diagonal, det_diagonal]
  have h : (∏ i, ((a i : ℝ) + (b i : ℝ))) ≠ 0 := by
    refine (Finset.prod_pos fun i _ => ?_).ne'
    exact_mod_cast add_pos (ha i) (hb i)
  simp only [h, if_false]
  push_cast
  rfl

/-- C98: for diagonal inverse covariances the fused mean and covariance in exact arithmetic are
`ciMean` and the reciprocals of `ciPrecision`. -/
theorem C98_exact_fusing {a b x y : Fin n → ℚ} {w : ℚ} (hw : ∀ i, ciPrecision w a b i ≠ 0) :
    covIntersection (fun i => (x i : ℝ)) (diagonal fun i => (a i : ℝ)) (fun i => (y i : ℝ))
      (diagonal fun i => (b i : ℝ)) (w : ℝ) =
      some (fun i => ((ciMean w a b (headingNear0 x) (headingNear0 y) i : ℚ) : ℝ),
        diagonal fun i => ((1 / ciPrecision w a b i : ℚ) : ℝ)) := by
  have hr : ∀ x : Fin n → ℚ, rotateYaw (fun i => (x i : ℝ)) = fun i => ((headingNear0 x i : ℚ) : ℝ) := by
    intro x
    funext i
    unfold rotateYaw headingNear0 yawCut piDigits
    have hc : ((x i : ℝ) > 314159265359 / 100000000000) ↔ (314159265359 / 10 ^ 11 < x i) := by
      rw [gt_iff_lt, ← Rat.cast_lt (K := ℝ)]
      norm_num
    by_cases h : i.1 = 3 ∧ 314159265359 / 10 ^ 11 < x i
    · rw [if_pos h, if_pos ⟨h.1, hc.2 h.2⟩]
      push_cast
      norm_num
    · rw [if_neg h, if_neg fun h' => h ⟨h'.1, hc.1 h'.2⟩]
  have hA : (w : ℝ) • (diagonal fun i => (a i : ℝ)) + (1 - (w : ℝ)) • (diagonal fun i => (b i : ℝ)) =
      diagonal fun i => ((ciPrecision w a b i : ℚ) : ℝ) := by
    rw [← diagonal_smul, ← diagonal_smul, diagonal_add]
    congr 1
    funext i
    unfold ciPrecision
    push_cast
    rfl
  have hp : ∀ i, ((ciPrecision w a b i : ℚ) : ℝ) ≠ 0 := fun i => by exact_mod_cast hw i
  have hdet : IsUnit (diagonal fun i => ((ciPrecision w a b i : ℚ) : ℝ)).det := by
    rw [det_diagonal]
    exact (Finset.prod_ne_zero_iff.2 fun i _ => hp i).isUnit
  have hinv : (diagonal fun i => ((ciPrecision w a b i : ℚ) : ℝ))⁻¹ =
      diagonal fun i => ((1 / ciPrecision w a b i : ℚ) : ℝ) := by
    refine inv_eq_right_inv ?_
    rw [diagonal_mul_diagonal, ← diagonal_one]
    congr 1
    funext i
    push_cast
    field_simp [hp i]
  unfold covIntersection
  simp only [hA, hdet, if_true, hinv, hr]
  congr 2
  funext i
  rw [mulVec_diagonal]
  simp only [Pi.add_apply, Pi.smul_apply, mulVec_diagonal, smul_eq_mul]
  unfold ciMean
  push_cast
  ring

end

/-! ### Conversion to `float` and the heading -/

theorem yawCutF_value : ∃ c, yawCutF = .fin c ∧ |c - piDigits| ≤ 1 / 2 ^ 50 ∧
    ∃ c₂, FP.mul binary64 (.fin 2) yawCutF = .fin c₂ ∧ |c₂ - 2 * piDigits| ≤ 1 / 2 ^ 49 := by
  have h1 : yawCutF = .fin (binary64.round piDigits) := b64_ofRat (by norm_num [piDigits, abs_of_pos])
  have e1 := b64_std piDigits
  have hp : |piDigits| = piDigits := abs_of_pos (by norm_num [piDigits])
  rw [hp] at e1
  have b1 : |binary64.round piDigits - piDigits| ≤ 1 / 2 ^ 51 := e1.trans (by norm_num [piDigits])
  obtain ⟨l, u⟩ := abs_le.1 b1
  have b2 : |2 * binary64.round piDigits| ≤ 7 := by
    rw [abs_le]
    norm_num [piDigits] at l u ⊢
    constructor <;> linarith
  have e2 := b64_std (2 * binary64.round piDigits)
  refine ⟨_, h1, b1.trans (by norm_num), binary64.round (2 * binary64.round piDigits), ?_, ?_⟩
  · rw [h1]
    exact b64_ofRat (b2.trans (by norm_num))
  · have e3 : |binary64.round (2 * binary64.round piDigits) - 2 * binary64.round piDigits| ≤ 1 / 2 ^ 50 :=
      e2.trans (by
        generalize |2 * binary64.round piDigits| = z at *
        norm_num
        linarith)
    obtain ⟨l', u'⟩ := abs_le.1 e3
    rw [abs_le]
    norm_num at *
    constructor <;> linarith

/-- the mean that is fused: conversion to `float` and the side of the heading -/
theorem heading_err {n : ℕ} {p : Fin n → ℚ} {M : ℚ} (hM8 : 8 ≤ M) (hM : M ≤ 2 ^ 59) (hp : ∀ i, |p i| ≤ M)
    (h3 : ∀ i : Fin n, i.1 = 3 → 0 ≤ p i ∧ p i ≤ 8 ∧ 1 / 2 ^ 20 ≤ |p i - piDigits|) {w : Fin n → FP}
    (hw : ∀ i, w i = FP.conv binary32 (.fin (p i))) (i : Fin n) :
    ∃ y, rotateYawF w i = .fin y ∧ |y - headingNear0 p i| ≤ M / 2 ^ 23 ∧ |y| ≤ 101 / 100 * M := by
  have hr : w i = .fin (binary32.round (p i)) := (hw i).trans (b32_ofRat ((hp i).trans (hM.trans (by norm_num))))
  have e := b32_std (p i)
  have hpi := hp i
  have e' : |binary32.round (p i) - p i| ≤ M / 2 ^ 24 + 1 / 2 ^ 150 :=
    e.trans (by generalize |p i| = z at *; norm_num; linarith)
  have fin : ∀ {y z : ℚ}, |y - z| ≤ M / 2 ^ 23 → |z| ≤ M → |y| ≤ 101 / 100 * M := by
    intro y z h h'
    have := abs_add_le (y - z) z
    rw [sub_add_cancel] at this
    generalize |y - z| = a at *
    generalize |y| = b at *
    generalize |z| = c at *
    norm_num at *
    linarith
  have easy : |binary32.round (p i) - p i| ≤ M / 2 ^ 23 := e'.trans (by norm_num; linarith)
  unfold rotateYawF headingNear0
  by_cases hi : i.1 = 3
  · obtain ⟨p0, p8, pc⟩ := h3 i hi
    obtain ⟨c, hc, ec, c₂, hc₂, ec₂⟩ := yawCutF_value
    rw [hr, hc₂, hc]
    rw [abs_of_nonneg p0] at e
    obtain ⟨el, eu⟩ := abs_le.1 e
    obtain ⟨cl, cu⟩ := abs_le.1 ec
    obtain ⟨dl, du⟩ := abs_le.1 ec₂
    by_cases hlt : piDigits < p i
    · rw [abs_of_pos (sub_pos.2 hlt)] at pc
      set r := binary32.round (p i) with hrd
      have hgt : c < r := by
        clear_value r
        norm_num [piDigits] at *
        linarith
      have hg : FP.gt (.fin r) (.fin c) = true := by simp [FP.gt, hgt]
      rw [if_pos ⟨hi, hg⟩, if_pos ⟨hi, hlt⟩]
      have hd : |r - c₂| ≤ 4 := by
        rw [abs_le]
        clear_value r
        norm_num [piDigits] at *
        constructor <;> linarith
      have e1 := b64_std (r - c₂)
      have e1' : |binary64.round (r - c₂) - (r - c₂)| ≤ 1 / 2 ^ 50 := e1.trans (by
        generalize |r - c₂| = z at *
        norm_num
        linarith)
      obtain ⟨l1, u1⟩ := abs_le.1 e1'
      obtain ⟨l0, u0⟩ := abs_le.1 hd
      have hd2 : |binary64.round (r - c₂)| ≤ 5 := by
        rw [abs_le]
        generalize binary64.round (r - c₂) = z at *
        clear_value r
        norm_num at *
        constructor <;> linarith
      have e2 := b32_std (binary64.round (r - c₂))
      have e2' : |binary32.round (binary64.round (r - c₂)) - binary64.round (r - c₂)| ≤ 6 / 2 ^ 24 :=
        e2.trans (by
          generalize |binary64.round (r - c₂)| = z at *
          norm_num
          linarith)
      obtain ⟨l2, u2⟩ := abs_le.1 e2'
      have key : |binary32.round (binary64.round (r - c₂)) - (p i - 2 * piDigits)| ≤ M / 2 ^ 23 := by
        rw [abs_le]
        generalize binary32.round (binary64.round (r - c₂)) = z' at *
        generalize binary64.round (r - c₂) = z at *
        clear_value r
        norm_num [piDigits] at *
        constructor <;> linarith
      refine ⟨_, ?_, key, fin key ?_⟩
      · have f1 : FP.sub binary64 (.fin r) (.fin c₂) = .fin (binary64.round (r - c₂)) :=
          b64_ofRat (hd.trans (by norm_num))
        rw [f1]
        exact b32_ofRat (hd2.trans (by norm_num))
      · rw [abs_le]
        norm_num [piDigits] at *
        constructor <;> linarith
    · rw [abs_of_nonpos (sub_nonpos.2 (not_lt.1 hlt))] at pc
      have hgt : ¬ c < binary32.round (p i) := by
        generalize binary32.round (p i) = r at *
        norm_num [piDigits] at *
        linarith
      have hg : ¬ FP.gt (.fin (binary32.round (p i))) (.fin c) = true := by simp [FP.gt, not_lt.1 hgt]
      rw [if_neg fun h => hg h.2, if_neg fun h => hlt h.2]
      exact ⟨_, rfl, easy, fin easy hpi⟩
  · rw [if_neg fun h => hi h.1, if_neg fun h => hi h.1]
    exact ⟨_, hr, easy, fin easy hpi⟩

/-! ### Accuracy -/

/-- the fused mean depends on the means like a weighted average -/
theorem ciMean_sub {n : ℕ} {a b x y x' y' : Fin n → ℚ} {w e : ℚ} {i : Fin n} (hw : 0 ≤ w) (hw' : w ≤ 1)
    (ha : 0 < a i) (hb : 0 < b i) (hx : |x i - x' i| ≤ e) (hy : |y i - y' i| ≤ e) :
    |ciMean w a b x y i - ciMean w a b x' y' i| ≤ e := by
  have h1 : 0 ≤ w * a i := mul_nonneg hw ha.le
  have h2 : 0 ≤ (1 - w) * b i := mul_nonneg (sub_nonneg.2 hw') hb.le
  have hp : 0 < w * a i + (1 - w) * b i := by
    rcases hw.lt_or_eq with h | rfl
    · exact add_pos_of_pos_of_nonneg (mul_pos h ha) h2
    · simpa using hb
  unfold ciMean ciPrecision
  rw [div_sub_div_same, abs_div, abs_of_pos hp, div_le_iff₀ hp,
    show w * a i * x i + (1 - w) * b i * y i - (w * a i * x' i + (1 - w) * b i * y' i) =
      w * a i * (x i - x' i) + (1 - w) * b i * (y i - y' i) by ring]
  refine (abs_add_le _ _).trans ?_
  rw [abs_mul (w * a i), abs_mul ((1 - w) * b i), abs_of_nonneg h1, abs_of_nonneg h2]
  have e1 := mul_le_mul_of_nonneg_left hx h1
  have e2 := mul_le_mul_of_nonneg_left hy h2
  linarith

section
variable {n : ℕ} {E : EigenF} {v₁ v₂ : Fin n → ℚ}

/-- C98: the weight.  Variances between 2⁻¹² and 2¹⁶, at most 6 coordinates: the computed weight is
between 0 and 1 and within 40/2²⁴ of the exact weight. -/
theorem C98_weight (hE : E.Diagonal) (hn : 0 < n) (hn' : n ≤ 6) (h₁ : ∀ i, 1 / 2 ^ 12 ≤ v₁ i)
    (h₁' : ∀ i, v₁ i ≤ 2 ^ 16) (h₂ : ∀ i, 1 / 2 ^ 12 ≤ v₂ i) (h₂' : ∀ i, v₂ i ≤ 2 ^ 16) :
    ∃ w, generateWeightF E (E.inv (diagonalF fun i => .fin (v₁ i)))
        (E.inv (diagonalF fun i => .fin (v₂ i))) = .fin w ∧ 0 ≤ w ∧ w ≤ 1 ∧
      |w - ciWeight (fun i => 1 / v₁ i) (fun i => 1 / v₂ i)| ≤ 40 / 2 ^ 24 :=
  weight_acc hE hn hn' h₁ h₁' h₂ h₂'

/-- mean and covariance for vectors -/
theorem fusing_acc (hE : E.Diagonal) (hn : 0 < n) (hn' : n ≤ 6) (h₁ : ∀ i, 1 / 2 ^ 12 ≤ v₁ i)
    (h₁' : ∀ i, v₁ i ≤ 2 ^ 16) (h₂ : ∀ i, 1 / 2 ^ 12 ≤ v₂ i) (h₂' : ∀ i, v₂ i ≤ 2 ^ 16)
    {p q : Fin n → ℚ} {M : ℚ} (hM8 : 8 ≤ M) (hM : M ≤ 2 ^ 59) (hp : ∀ i, |p i| ≤ M)
    (hq : ∀ i, |q i| ≤ M)
    (hp3 : ∀ i : Fin n, i.1 = 3 → 0 ≤ p i ∧ p i ≤ 8 ∧ 1 / 2 ^ 20 ≤ |p i - piDigits|)
    (hq3 : ∀ i : Fin n, i.1 = 3 → 0 ≤ q i ∧ q i ≤ 8 ∧ 1 / 2 ^ 20 ≤ |q i - piDigits|)
    {m₁ m₂ x : Fin n → FP} {C : Matrix (Fin n) (Fin n) FP}
    (hm₁ : ∀ i, m₁ i = FP.conv binary32 (.fin (p i))) (hm₂ : ∀ i, m₂ i = FP.conv binary32 (.fin (q i)))
    (h : IsIntersectionF E m₁ (E.inv (diagonalF fun i => .fin (v₁ i))) m₂
      (E.inv (diagonalF fun i => .fin (v₂ i)))
      (generateWeightF E (E.inv (diagonalF fun i => .fin (v₁ i)))
        (E.inv (diagonalF fun i => .fin (v₂ i)))) x C) :
    ∃ (w : ℚ) (z c : Fin n → ℚ), 0 ≤ w ∧ w ≤ 1 ∧
      |w - ciWeight (fun i => 1 / v₁ i) (fun i => 1 / v₂ i)| ≤ 40 / 2 ^ 24 ∧
      (∀ i, x i = .fin (z i) ∧ IsFloat (z i) ∧ |z i - ciMean w (fun i => 1 / v₁ i) (fun i => 1 / v₂ i)
        (headingNear0 p) (headingNear0 q) i| ≤ M / 2 ^ 19) ∧
      C = diagonalF (fun i => .fin (c i)) ∧
      ∀ i, |c i - 1 / ciPrecision w (fun i => 1 / v₁ i) (fun i => 1 / v₂ i) i| ≤
        1 / 2 ^ 20 * (1 / ciPrecision w (fun i => 1 / v₁ i) (fun i => 1 / v₂ i) i) := by
  obtain ⟨w, hw, w0, w1, ew⟩ := weight_acc hE hn hn' h₁ h₁' h₂ h₂'
  rw [hw] at h
  choose y₁ hy₁ ey₁ by₁ using heading_err hM8 hM hp hp3 hm₁
  choose y₂ hy₂ ey₂ by₂ using heading_err hM8 hM hq hq3 hm₂
  obtain ⟨⟨c, hC, ec⟩, hx⟩ := intersection_acc hE h₁ h₁' h₂ h₂' w0 w1 hy₁ hy₂ by₁ by₂
    (by norm_num at *; linarith) h
  choose z hz ez using hx
  refine ⟨w, z, c, w0, w1, ew, fun i => ⟨hz i, fused_isFloat h i _ (hz i), ?_⟩, hC, ec⟩
  have pos : ∀ {v : Fin n → ℚ}, (∀ i, 1 / 2 ^ 12 ≤ v i) → ∀ i, 0 < 1 / v i := fun hv i =>
    one_div_pos.2 (lt_of_lt_of_le (by norm_num) (hv i))
  have e1 := ez i
  have e2 := ciMean_sub (a := fun i => 1 / v₁ i) (b := fun i => 1 / v₂ i) w0 w1 (pos h₁ i) (pos h₂ i)
    (ey₁ i) (ey₂ i)
  have := abs_add_le (z i - ciMean w (fun i => 1 / v₁ i) (fun i => 1 / v₂ i) y₁ y₂ i)
    (ciMean w (fun i => 1 / v₁ i) (fun i => 1 / v₂ i) y₁ y₂ i -
      ciMean w (fun i => 1 / v₁ i) (fun i => 1 / v₂ i) (headingNear0 p) (headingNear0 q) i)
  rw [sub_add_sub_cancel] at this
  refine this.trans ((add_le_add e1 e2).trans ?_)
  norm_num
  linarith

end

/-- C98: accuracy for the CTRV model.  Diagonal covariances with variances between 2⁻¹² and 2¹⁶;
states of magnitude at most `M` (8 ≤ `M` ≤ 2⁵⁹) whose headings are not within 2⁻²⁰ of the cut.  The
computed fused state differs by at most `M`/2¹⁹ from the exact one for a weight `w` that is within
40/2²⁴ of the exact weight; the fused variances are accurate to 20 bits. -/
theorem C98_accuracy_ctrv {E : EigenF} (hE : E.Diagonal)
    {t d f : DynObj (CtrvStateF m) (Matrix (Fin 5) (Fin 5) FP)} (h : IsFusedF E t d f)
    {v₁ v₂ p q : Fin 5 → ℚ} {M : ℚ} (ht : t.covariance = diagonalF fun i => .fin (v₁ i))
    (hd : d.covariance = diagonalF fun i => .fin (v₂ i)) (h₁ : ∀ i, 1 / 2 ^ 12 ≤ v₁ i)
    (h₁' : ∀ i, v₁ i ≤ 2 ^ 16) (h₂ : ∀ i, 1 / 2 ^ 12 ≤ v₂ i) (h₂' : ∀ i, v₂ i ≤ 2 ^ 16)
    (hM8 : 8 ≤ M) (hM : M ≤ 2 ^ 59) (hp : ∀ i, |p i| ≤ M) (hq : ∀ i, |q i| ≤ M)
    (hp3 : 0 ≤ p 3 ∧ p 3 ≤ 8 ∧ 1 / 2 ^ 20 ≤ |p 3 - piDigits|)
    (hq3 : 0 ≤ q 3 ∧ q 3 ≤ 8 ∧ 1 / 2 ^ 20 ≤ |q 3 - piDigits|)
    (hts : t.state.x = .fin (p 0) ∧ t.state.y = .fin (p 1) ∧ t.state.v = .fin (p 2) ∧
      m.getAngle t.state.yaw = .fin (p 3) ∧ t.state.yawRate = .fin (p 4))
    (hds : d.state.x = .fin (q 0) ∧ d.state.y = .fin (q 1) ∧ d.state.v = .fin (q 2) ∧
      m.getAngle d.state.yaw = .fin (q 3) ∧ d.state.yawRate = .fin (q 4)) :
    ∃ (w : ℚ) (z c : Fin 5 → ℚ), 0 ≤ w ∧ w ≤ 1 ∧
      |w - ciWeight (fun i => 1 / v₁ i) (fun i => 1 / v₂ i)| ≤ 40 / 2 ^ 24 ∧
      f.state = ⟨.fin (z 0), .fin (z 1), .fin (z 2), m.ofRad (.fin (z 3)), .fin (z 4)⟩ ∧
      (∀ i, |z i - ciMean w (fun i => 1 / v₁ i) (fun i => 1 / v₂ i) (headingNear0 p) (headingNear0 q) i| ≤
        M / 2 ^ 19) ∧
      f.covariance = diagonalF (fun i => .fin (c i)) ∧
      ∀ i, |c i - 1 / ciPrecision w (fun i => 1 / v₁ i) (fun i => 1 / v₂ i) i| ≤
        1 / 2 ^ 20 * (1 / ciPrecision w (fun i => 1 / v₁ i) (fun i => 1 / v₂ i) i) := by
  obtain ⟨x, C, hx, rfl⟩ := h
  rw [ht, hd] at hx
  have vec : ∀ {s : CtrvStateF m} {p : Fin 5 → ℚ}, (s.x = .fin (p 0) ∧ s.y = .fin (p 1) ∧
      s.v = .fin (p 2) ∧ m.getAngle s.yaw = .fin (p 3) ∧ s.yawRate = .fin (p 4)) →
      ∀ i, MotionModelF.toVec s i = FP.conv binary32 (.fin (p i)) := by
    rintro s p ⟨e0, e1, e2, e3, e4⟩ i
    show ![s.x.conv binary32, s.y.conv binary32, s.v.conv binary32,
      (m.getAngle s.yaw).conv binary32, s.yawRate.conv binary32] i = _
    rw [e0, e1, e2, e3, e4]
    fin_cases i <;> rfl
  have three : ∀ {p : Fin 5 → ℚ}, (0 ≤ p 3 ∧ p 3 ≤ 8 ∧ 1 / 2 ^ 20 ≤ |p 3 - piDigits|) →
      ∀ i : Fin 5, i.1 = 3 → 0 ≤ p i ∧ p i ≤ 8 ∧ 1 / 2 ^ 20 ≤ |p i - piDigits| := by
    intro p hp i hi
    obtain rfl : i = 3 := Fin.ext hi
    exact hp
  obtain ⟨w, z, c, w0, w1, ew, hz, hC, ec⟩ := fusing_acc hE (by norm_num) (by norm_num) h₁ h₁' h₂ h₂' hM8 hM hp
    hq (three hp3) (three hq3) (vec hts) (vec hds) hx
  refine ⟨w, z, c, w0, w1, ew, ?_, fun i => (hz i).2.2, hC, ec⟩
  have e : ∀ i, (x i).conv binary64 = .fin (z i) := fun i => by rw [(hz i).1, (hz i).2.1.conv64]
  show (⟨(x 0).conv binary64, (x 1).conv binary64, (x 2).conv binary64,
    m.ofRad ((x 3).conv binary64), (x 4).conv binary64⟩ : CtrvStateF m) = _
  rw [e, e, e, e, e]

/-- C98: accuracy for the CTRA model. -/
theorem C98_accuracy_ctra {E : EigenF} (hE : E.Diagonal)
    {t d f : DynObj (CtraStateF m) (Matrix (Fin 6) (Fin 6) FP)} (h : IsFusedF E t d f)
    {v₁ v₂ p q : Fin 6 → ℚ} {M : ℚ} (ht : t.covariance = diagonalF fun i => .fin (v₁ i))
    (hd : d.covariance = diagonalF fun i => .fin (v₂ i)) (h₁ : ∀ i, 1 / 2 ^ 12 ≤ v₁ i)
    (h₁' : ∀ i, v₁ i ≤ 2 ^ 16) (h₂ : ∀ i, 1 / 2 ^ 12 ≤ v₂ i) (h₂' : ∀ i, v₂ i ≤ 2 ^ 16)
    (hM8 : 8 ≤ M) (hM : M ≤ 2 ^ 59) (hp : ∀ i, |p i| ≤ M) (hq : ∀ i, |q i| ≤ M)
    (hp3 : 0 ≤ p 3 ∧ p 3 ≤ 8 ∧ 1 / 2 ^ 20 ≤ |p 3 - piDigits|)
    (hq3 : 0 ≤ q 3 ∧ q 3 ≤ 8 ∧ 1 / 2 ^ 20 ≤ |q 3 - piDigits|)
    (hts : t.state.x = .fin (p 0) ∧ t.state.y = .fin (p 1) ∧ t.state.v = .fin (p 2) ∧
      m.getAngle t.state.yaw = .fin (p 3) ∧ t.state.yawRate = .fin (p 4) ∧ t.state.a = .fin (p 5))
    (hds : d.state.x = .fin (q 0) ∧ d.state.y = .fin (q 1) ∧ d.state.v = .fin (q 2) ∧
      m.getAngle d.state.yaw = .fin (q 3) ∧ d.state.yawRate = .fin (q 4) ∧ d.state.a = .fin (q 5)) :
    ∃ (w : ℚ) (z c : Fin 6 → ℚ), 0 ≤ w ∧ w ≤ 1 ∧
      |w - ciWeight (fun i => 1 / v₁ i) (fun i => 1 / v₂ i)| ≤ 40 / 2 ^ 24 ∧
      f.state = ⟨.fin (z 0), .fin (z 1), .fin (z 2), m.ofRad (.fin (z 3)), .fin (z 4), .fin (z 5)⟩ ∧
      (∀ i, |z i - ciMean w (fun i => 1 / v₁ i) (fun i => 1 / v₂ i) (headingNear0 p) (headingNear0 q) i| ≤
        M / 2 ^ 19) ∧
      f.covariance = diagonalF (fun i => .fin (c i)) ∧
      ∀ i, |c i - 1 / ciPrecision w (fun i => 1 / v₁ i) (fun i => 1 / v₂ i) i| ≤
        1 / 2 ^ 20 * (1 / ciPrecision w (fun i => 1 / v₁ i) (fun i => 1 / v₂ i) i) := by
  obtain ⟨x, C, hx, rfl⟩ := h
  rw [ht, hd] at hx
  have vec : ∀ {s : CtraStateF m} {p : Fin 6 → ℚ}, (s.x = .fin (p 0) ∧ s.y = .fin (p 1) ∧
      s.v = .fin (p 2) ∧ m.getAngle s.yaw = .fin (p 3) ∧ s.yawRate = .fin (p 4) ∧ s.a = .fin (p 5)) →
      ∀ i, MotionModelF.toVec s i = FP.conv binary32 (.fin (p i)) := by
    rintro s p ⟨e0, e1, e2, e3, e4, e5⟩ i
    show ![s.x.conv binary32, s.y.conv binary32, s.v.conv binary32,
      (m.getAngle s.yaw).conv binary32, s.yawRate.conv binary32, s.a.conv binary32] i = _
    rw [e0, e1, e2, e3, e4, e5]
    fin_cases i <;> rfl
  have three : ∀ {p : Fin 6 → ℚ}, (0 ≤ p 3 ∧ p 3 ≤ 8 ∧ 1 / 2 ^ 20 ≤ |p 3 - piDigits|) →
      ∀ i : Fin 6, i.1 = 3 → 0 ≤ p i ∧ p i ≤ 8 ∧ 1 / 2 ^ 20 ≤ |p i - piDigits| := by
    intro p hp i hi
    obtain rfl : i = 3 := Fin.ext hi
    exact hp
  obtain ⟨w, z, c, w0, w1, ew, hz, hC, ec⟩ := fusing_acc hE (by norm_num) (by norm_num) h₁ h₁' h₂ h₂' hM8 hM hp
    hq (three hp3) (three hq3) (vec hts) (vec hds) hx
  refine ⟨w, z, c, w0, w1, ew, ?_, fun i => (hz i).2.2, hC, ec⟩
  have e : ∀ i, (x i).conv binary64 = .fin (z i) := fun i => by rw [(hz i).1, (hz i).2.1.conv64]
  show (⟨(x 0).conv binary64, (x 1).conv binary64, (x 2).conv binary64,
    m.ofRad ((x 3).conv binary64), (x 4).conv binary64, (x 5).conv binary64⟩ : CtraStateF m) = _
  rw [e, e, e, e, e, e]

/-! ### Fusing a track with itself -/

/-- C98: a result exists for every input. -/
theorem C98_exists {S : Type} {n : ℕ} [MotionModelF S n] (hn : 0 < n) (E : EigenF)
    (t d : DynObj S (Matrix (Fin n) (Fin n) FP)) : ∃ f, IsFusedF E t d f := by
  have sum : ∀ g : Fin n → FP, ∃ x, SumsTo binary32 (List.ofFn g) x := fun g =>
    ⟨_, leftSum_sums (by
      intro h
      have := congrArg List.length h
      simp at this
      omega)⟩
  have hr : ∀ (w : FP) (row v : Fin n → FP), ∃ x, IsScaledRowF w row v x := fun w row v => by
    obtain ⟨x, hx⟩ := sum fun j => FP.mul binary32 (FP.mul binary32 w (row j)) (v j)
    exact ⟨x, .inl hx⟩
  set A := E.inv t.covariance
  set B := E.inv d.covariance
  set w := generateWeightF E A B
  choose s₁ h₁ using fun i => hr w (A i) (rotateYawF (MotionModelF.toVec t.state))
  choose s₂ h₂ using fun i => hr (FP.sub binary32 (.fin 1) w) (B i) (rotateYawF (MotionModelF.toVec d.state))
  choose x hx using fun i => sum fun j =>
    FP.mul binary32 (E.invX (combinedF A B w) i j) (FP.add binary32 (s₁ j) (s₂ j))
  exact ⟨_, x, _, ⟨rfl, s₁, s₂, h₁, h₂, hx⟩, rfl⟩

/-- C98: in exact arithmetic fusing a track with an equal detection keeps the state; as computed it
does not.  All variances 3, position 7, everything else 0: the fused position is 7 + 2⁻²¹, in every
order of summation and for every grouping of the products. -/
theorem C98_self_not_kept {t f : DynObj (CtrvStateF m) (Matrix (Fin 5) (Fin 5) FP)}
    (ht : t.covariance = diagonalF fun _ => .fin 3)
    (hs : t.state.x = .fin 7 ∧ t.state.y = .fin 0 ∧ t.state.v = .fin 0 ∧
      m.getAngle t.state.yaw = .fin 0 ∧ t.state.yawRate = .fin 0)
    (h : IsFusedF diagonalEigen t t f) : f.state.x = .fin (7 + 1 / 2 ^ 21) := by
  obtain ⟨x, C, hx, rfl⟩ := h
  rw [ht] at hx
  have hv : rotateYawF (MotionModelF.toVec t.state) = fun i => .fin (![7, 0, 0, 0, 0] i) := by
    obtain ⟨e0, e1, e2, e3, e4⟩ := hs
    have : MotionModelF.toVec t.state = fun i => FP.conv binary32 (.fin (![7, 0, 0, 0, 0] i)) := by
      funext i
      show ![t.state.x.conv binary32, t.state.y.conv binary32, t.state.v.conv binary32,
        (m.getAngle t.state.yaw).conv binary32, t.state.yawRate.conv binary32] i = _
      rw [e0, e1, e2, e3, e4]
      fin_cases i <;> rfl
    rw [this]
    funext i
    revert i
    decide +kernel
  have hi : diagonalEigen.inv (diagonalF fun _ : Fin 5 => .fin 3) =
      diagonalF fun _ => .fin (11184811 / 2 ^ 25) := by
    rw [C98_eigen.inv (fun _ => 3) (fun _ => by norm_num) fun _ => ⟨11184811 / 2 ^ 25, by decide +kernel⟩]
    congr 1
    funext i
    decide +kernel
  rw [hi] at hx
  have hw : generateWeightF diagonalEigen (diagonalF fun _ : Fin 5 => .fin (11184811 / 2 ^ 25))
      (diagonalF fun _ => .fin (11184811 / 2 ^ 25)) = .fin (1 / 2) := by decide +kernel
  rw [hw] at hx
  obtain ⟨hC, s₁, s₂, h₁, h₂, h3⟩ := hx
  have hw' : FP.sub binary32 (.fin 1) (.fin (1 / 2)) = .fin (1 / 2) := by decide +kernel
  rw [hw', hv] at h₂
  rw [hv] at h₁
  have row : ∀ {s : Fin 5 → FP}, (∀ i, IsScaledRowF (.fin (1 / 2))
      (diagonalF (fun _ : Fin 5 => .fin (11184811 / 2 ^ 25)) i) (fun i => .fin (![7, 0, 0, 0, 0] i)) (s i)) →
      ∀ i, s i = ![.fin (4893355 / 2 ^ 22), .fin 0, .fin 0, .fin 0, .fin 0] i := by
    intro s hs i
    have := (hs i).diag (a := fun _ => 11184811 / 2 ^ 25) (v := ![7, 0, 0, 0, 0])
      (fun j => ⟨⟨11184811 / 2 ^ 26, by decide +kernel⟩, ⟨![7 / 2, 0, 0, 0, 0] j, by revert j; decide +kernel⟩⟩)
      ⟨![4893355 / 2 ^ 22, 0, 0, 0, 0] i, by revert i; decide +kernel⟩
      ⟨![4893355 / 2 ^ 22, 0, 0, 0, 0] i, by revert i; decide +kernel⟩
      ⟨![4893355 / 2 ^ 21, 0, 0, 0, 0] i, by revert i; decide +kernel⟩
    rcases this with e | e | e <;> rw [e] <;> clear e hs <;> revert i <;> decide +kernel
  have e₁ := row h₁
  have e₂ := row h₂
  have hCd : C = diagonalF fun _ => .fin 3 := by
    rw [hC]
    decide +kernel
  have : x 0 = .fin (7 + 1 / 2 ^ 21) := by
    refine (h3 0).diag (i := 0) (isFloat_of_ofRat (w := 7 + 1 / 2 ^ 21) (by decide +kernel)) ?_ fun j hj => ?_
    · rw [hCd, e₁, e₂]
      decide +kernel
    · rw [hCd, e₁, e₂]
      revert j
      decide +kernel
  show (x 0).conv binary64 = _
  rw [this]
  decide +kernel

/-! ### Examples -/

/-- variances of a radar: 0.25 m², 0.04 m²/s², … against a track's of 1 and 0.5 -/
example : ∃ w, generateWeightF diagonalEigen
      (diagonalEigen.inv (diagonalF fun i : Fin 5 => .fin (![1, 1, 1 / 2, 1 / 10, 1 / 100] i)))
      (diagonalEigen.inv (diagonalF fun i : Fin 5 => .fin (![1 / 4, 1 / 4, 1 / 25, 1 / 50, 1 / 50] i))) =
        .fin w ∧ 0 ≤ w ∧ w ≤ 1 ∧
      |w - ciWeight (fun i : Fin 5 => 1 / ![1, 1, 1 / 2, 1 / 10, 1 / 100] i)
        (fun i => 1 / ![1 / 4, 1 / 4, 1 / 25, 1 / 50, 1 / 50] i)| ≤ 40 / 2 ^ 24 :=
  C98_weight C98_eigen (by norm_num) (by norm_num) (by intro i; fin_cases i <;> norm_num)
    (by intro i; fin_cases i <;> norm_num) (by intro i; fin_cases i <;> norm_num)
    (by intro i; fin_cases i <;> norm_num)

/-- the hypotheses of `C98_accuracy_ctrv` on the numbers: 10 km from the origin, headings on both
sides of the cut -/
example : (∀ i, |(![9000, -4000, 12, 3, 1 / 10] : Fin 5 → ℚ) i| ≤ 10 ^ 4) ∧
    (0 ≤ (3 : ℚ) ∧ (3 : ℚ) ≤ 8 ∧ 1 / 2 ^ 20 ≤ |3 - piDigits|) ∧
    (0 ≤ (7 / 2 : ℚ) ∧ (7 / 2 : ℚ) ≤ 8 ∧ 1 / 2 ^ 20 ≤ |7 / 2 - piDigits|) ∧
    headingNear0 (![9000, -4000, 12, 7 / 2, 1 / 10] : Fin 5 → ℚ) 3 = 7 / 2 - 2 * piDigits := by
  refine ⟨by intro i; fin_cases i <;> norm_num [abs_of_pos, abs_of_neg], ⟨by norm_num, by norm_num, ?_⟩,
    ⟨by norm_num, by norm_num, ?_⟩, ?_⟩
  · norm_num [piDigits, abs_of_neg]
  · norm_num [piDigits, abs_of_pos]
  · unfold headingNear0
    rw [if_pos ⟨rfl, show piDigits < 7 / 2 by norm_num [piDigits]⟩]
    rfl

end Mot.Props
