import Verif.Proofs.FloatDiagonal
import Verif.Props.FloatMahalanobis
/-!
# The Mahalanobis score as it is computed: accuracy (C97)
-/

namespace Mot.Props

open Mot Spec

/-- C97: every entry of the computed inverse of a 3×3 covariance.  The error is a multiple of the
unit roundoff, of the cancellation in the determinant, and of the entry with all products counted
as positive. -/
theorem C97_inverse {C : Matrix (Fin 3) (Fin 3) ℚ} (hC : ∀ i j, |C i j| ≤ 2 ^ 16)
    (hD : 1 / 2 ^ 40 ≤ |C.det|) (hK : cancellation C ≤ 2 ^ 20) {d : FP}
    (h : IsDet3F (fun i j => .fin (C i j)) d) (i j : Fin 3) :
    ∃ a, inverse3F (fun i j => .fin (C i j)) d i j = .fin a ∧
      |a - C⁻¹ i j| ≤ 14 / 2 ^ 24 * cancellation C * (absCofactor C j i / |C.det|) + 1 / 2 ^ 100 :=
  inverse_err hC hD ((div_le_iff₀ (lt_of_lt_of_le (by norm_num) hD)).1 hK) h i j

private theorem sq_err {ρ t : ℝ} (h0 : 0 ≤ t) (hb : |ρ - t| ≤ t / 2 ^ 24 + 1 / 2 ^ 150) :
    |ρ ^ 2 - t ^ 2| ≤ 201 / 100 / 2 ^ 24 * t ^ 2 + 1 / 2 ^ 120 := by
  have h1 : t ≤ 1 + t ^ 2 := by nlinarith [sq_nonneg (t - 1)]
  have hb2 : |ρ - t| * |ρ - t| ≤ (t / 2 ^ 24 + 1 / 2 ^ 150) * (t / 2 ^ 24 + 1 / 2 ^ 150) :=
    mul_le_mul hb hb (abs_nonneg _) ((abs_nonneg _).trans hb)
  have hb3 := mul_le_mul_of_nonneg_left hb (mul_nonneg zero_le_two h0)
  have e2 : ρ ^ 2 - t ^ 2 = (ρ - t) * (ρ - t) + 2 * t * (ρ - t) := by ring
  rw [e2]
  refine (abs_add_le _ _).trans ?_
  rw [abs_mul, abs_mul, abs_of_nonneg (mul_nonneg zero_le_two h0)]
  generalize |ρ - t| = w at *
  have e3 : (t / 2 ^ 24 + 1 / 2 ^ 150) * (t / 2 ^ 24 + 1 / 2 ^ 150) =
      t ^ 2 / 2 ^ 48 + 2 * t / 2 ^ 174 + 1 / 2 ^ 150 * (1 / 2 ^ 150) := by ring
  have e4 : 2 * t * (t / 2 ^ 24 + 1 / 2 ^ 150) = 2 * t ^ 2 / 2 ^ 24 + 2 * t / 2 ^ 150 := by ring
  rw [e3] at hb2
  rw [e4] at hb3
  have hs : 0 ≤ t ^ 2 := sq_nonneg t
  clear e2 e3 e4 hb
  generalize 2 * t * w = z at *
  generalize w * w = z' at *
  generalize t ^ 2 = s at *
  norm_num at *
  linarith

/-- from the square to the root -/
private theorem root_err {q : ℚ} (hq : 0 ≤ q) :
    |binary32.sqrt q ^ 2 - q| ≤ 201 / 100 / 2 ^ 24 * q + 1 / 2 ^ 120 := by
  have hq' : (0 : ℝ) ≤ q := by exact_mod_cast hq
  have key := sq_err (Real.sqrt_nonneg (q : ℝ)) (b32_sqrt_std hq)
  rw [Real.sq_sqrt hq'] at key
  have key' : ((|binary32.sqrt q ^ 2 - q| : ℚ) : ℝ) ≤
      ((201 / 100 / 2 ^ 24 * q + 1 / 2 ^ 120 : ℚ) : ℝ) := by
    push_cast
    exact key
  exact Rat.cast_le.1 key'

/-- C97: if the entries of the pose covariance are at most 2¹⁶, its determinant is at least 2⁻⁴⁰ and
the cancellation in it at most 2²⁰, and the computed differences of coordinates are at most 2¹⁸,
then the score is finite unless the exact squared distance is below the error bound; and its square
differs from the exact squared distance by at most the error bound.  The bound is 2⁻¹⁹ of the
product of the cancellation and the squared distance with all products counted as positive. -/
theorem C97_accuracy {C : Matrix (Fin 3) (Fin 3) ℚ} (hC : ∀ i j, |C i j| ≤ 2 ^ 16)
    (hD : 1 / 2 ^ 40 ≤ |C.det|) (hK : cancellation C ≤ 2 ^ 20) {p q : FPose} {e : Fin 3 → ℚ}
    (hpq : ∀ i, poseDiffF p q i = .fin (e i)) (he : ∀ i, |e i| ≤ 2 ^ 18) {r : FP}
    (h : IsMahalanobisF (fun i j => .fin (C i j)) p q r) :
    let bound := cancellation C * absMahalanobisSq C e / 2 ^ 19 + 1 / 2 ^ 50
    (r = .nan ∧ mahalanobisSq C e ≤ bound) ∨
      ∃ ρ, r = .fin ρ ∧ 0 ≤ ρ ∧ |ρ ^ 2 - mahalanobisSq C e| ≤ bound := by
  intro bound
  obtain ⟨d, hd, s, hs, rfl⟩ := h
  have hDp : 0 < |C.det| := lt_of_lt_of_le (by norm_num) hD
  have hK' := (div_le_iff₀ hDp).1 hK
  have hK1 : 1 ≤ cancellation C := by
    unfold cancellation
    rw [one_le_div hDp]
    exact abs_det_le C
  rw [show poseDiffF p q = fun i => .fin (e i) from funext hpq] at hs
  obtain ⟨q', rfl, hq⟩ := square_err hC hD hK' he hd hs
  have hb := (abs_le.1 (absForm_bound (C := C) e)).2
  have hb0 : 0 ≤ absMahalanobisSq C e := (abs_nonneg _).trans (absForm_bound e)
  have hKB : absMahalanobisSq C e ≤ cancellation C * absMahalanobisSq C e :=
    le_mul_of_one_le_left hb0 hK1
  have hbound : bound = cancellation C * absMahalanobisSq C e / 2 ^ 19 + 1 / 2 ^ 50 := rfl
  have hassoc : 26 / 2 ^ 24 * cancellation C * absMahalanobisSq C e =
    26 / 2 ^ 24 * (cancellation C * absMahalanobisSq C e) := by ring
  rw [hassoc] at hq
  generalize cancellation C * absMahalanobisSq C e = KB at *
  generalize absMahalanobisSq C e = B at *
  generalize mahalanobisSq C e = Q at *
  clear_value bound
  subst hbound
  by_cases h0 : q' < 0
  · refine .inl ⟨if_pos h0, ?_⟩
    have := (abs_le.1 hq).1
    norm_num at *
    linarith
  · refine .inr ⟨_, if_neg h0, binary32.sqrt_nonneg (not_lt.1 h0), ?_⟩
    have h1 := root_err (not_lt.1 h0)
    have h2 := (abs_le.1 hq).2
    have h3 := abs_add_le (binary32.sqrt q' ^ 2 - q') (q' - Q)
    rw [sub_add_sub_cancel] at h3
    generalize |binary32.sqrt q' ^ 2 - Q| = w at *
    generalize |binary32.sqrt q' ^ 2 - q'| = w' at *
    generalize |q' - Q| = w'' at *
    norm_num at *
    linarith

/-- a covariance with correlated coordinates -/
def correlated : Matrix (Fin 3) (Fin 3) ℚ :=
  !![1 / 4, 1 / 8, 0; 1 / 8, 1 / 4, 1 / 64; 0, 1 / 64, 1 / 16]

example : (∀ i j, |correlated i j| ≤ 2 ^ 16) ∧ 1 / 2 ^ 40 ≤ |correlated.det| ∧
    cancellation correlated ≤ 2 := by
  have hd : correlated.det = 47 / 16384 := by
    rw [Matrix.det_fin_three]
    simp [correlated]
    norm_num
  have ha : absDet correlated = 81 / 16384 := by
    simp [absDet, absCofactor, correlated, abs_of_pos]
    norm_num
  refine ⟨fun i j => ?_, ?_, ?_⟩
  · fin_cases i <;> fin_cases j <;> simp [correlated, abs_of_pos] <;> norm_num
  · rw [hd, abs_of_pos (by norm_num)]; norm_num
  · unfold cancellation
    rw [hd, ha, abs_of_pos (by norm_num)]
    norm_num

/-! ### Diagonal covariances -/

/-- the exact Mahalanobis distance of two poses for independent coordinates with variances `v` -/
noncomputable def exactMahalanobis (v a b : Fin 3 → ℚ) : ℝ :=
  √(((a 0 : ℝ) - b 0) ^ 2 / v 0 + ((a 1 : ℝ) - b 1) ^ 2 / v 1 + ((a 2 : ℝ) - b 2) ^ 2 / v 2)

/-- the root of a number close to a square -/
private theorem root_close {q D ρ : ℝ} (hq : 0 ≤ q) (hD : 0 ≤ D)
    (h : |q - D ^ 2| ≤ 26 / 2 ^ 24 * D ^ 2 + 1 / 2 ^ 59)
    (hρ : |ρ - √q| ≤ √q / 2 ^ 24 + 1 / 2 ^ 150) : |ρ - D| ≤ 16 / 2 ^ 24 * D + 1 / 2 ^ 28 := by
  obtain ⟨l, u⟩ := abs_le.1 h
  have hu : √q ≤ (1 + 13 / 2 ^ 24) * D + 1 / 2 ^ 29 := by
    refine Real.sqrt_le_iff.2 ⟨by positivity, ?_⟩
    have e : ((1 + 13 / 2 ^ 24) * D + 1 / 2 ^ 29) ^ 2 =
      (1 + 13 / 2 ^ 24) ^ 2 * D ^ 2 + 2 * (1 + 13 / 2 ^ 24) / 2 ^ 29 * D + 1 / 2 ^ 58 := by ring
    rw [e]
    have := sq_nonneg D
    norm_num at *
    linarith
  have hl : (1 - 14 / 2 ^ 24) * D - 1 / 2 ^ 29 ≤ √q := by
    by_cases hn : (1 - 14 / 2 ^ 24) * D - 1 / 2 ^ 29 ≤ 0
    · exact hn.trans (Real.sqrt_nonneg _)
    · push Not at hn
      refine Real.le_sqrt_of_sq_le ?_
      have e : ((1 - 14 / 2 ^ 24) * D - 1 / 2 ^ 29) ^ 2 =
        (1 - 14 / 2 ^ 24) ^ 2 * D ^ 2 - 1 / 2 ^ 29 * (2 * ((1 - 14 / 2 ^ 24) * D - 1 / 2 ^ 29)) -
          1 / 2 ^ 58 := by ring
      rw [e]
      have := sq_nonneg D
      norm_num at *
      linarith
  obtain ⟨l', u'⟩ := abs_le.1 hρ
  generalize √q = t at *
  rw [abs_le]
  norm_num at *
  constructor <;> linarith

/-- C97: independent coordinates with variances from 2⁻¹² to 2¹⁶ (standard deviations from
1.6 cm and 0.9° up), `σ` at most the smallest standard deviation, coordinates and headings of
magnitude at most `M ≤ 2⁴⁰`, and poses that differ by at most 2¹⁶ in each: the score is finite and
differs from the exact distance `D` by at most `D / 2¹⁹ + M / (2²² σ) + 2⁻²⁸`. -/
theorem C97_diagonal {v : Fin 3 → ℚ} (hv : ∀ i, 1 / 2 ^ 12 ≤ v i) (hv' : ∀ i, v i ≤ 2 ^ 16) {σ : ℚ}
    (hσ : 0 < σ) (hσv : ∀ i, σ ^ 2 ≤ v i) {M : ℚ} (hM : 1 ≤ M) (hM' : M ≤ 2 ^ 40) {a b : Fin 3 → ℚ}
    (ha : ∀ i, |a i| ≤ M) (hb : ∀ i, |b i| ≤ M) (hab : ∀ i, |a i - b i| ≤ 2 ^ 16) {r : FP}
    (h : IsMahalanobisF (diagF fun k => .fin (v k)) (finPose a) (finPose b) r) :
    ∃ ρ : ℚ, r = .fin ρ ∧ 0 ≤ ρ ∧ |(ρ : ℝ) - exactMahalanobis v a b| ≤
      exactMahalanobis v a b / 2 ^ 19 + M / (2 ^ 22 * σ) + 1 / 2 ^ 28 := by
  have vp : ∀ i, 0 < v i := fun i => lt_of_lt_of_le (by norm_num) (hv i)
  obtain ⟨d, hd, s, hs, rfl⟩ := h
  -- the computed differences
  have hdiff : poseDiffF (finPose a) (finPose b) = fun i => .fin (diffQ (a i) (b i)) := by
    funext i
    have := sub_fin (hM'.trans (by norm_num)) (ha i) (hb i)
    fin_cases i <;> exact this
  have herr : ∀ i, |diffQ (a i) (b i) - (a i - b i)| ≤
      |a i - b i| / 2 ^ 24 + 201 / 100 / 2 ^ 24 * M := fun i => diff_err hM (ha i) (hb i)
  have he : ∀ i, |diffQ (a i) (b i)| ≤ 2 ^ 18 := fun i => by
    have h1 := herr i
    have h2 := abs_add_le (diffQ (a i) (b i) - (a i - b i)) (a i - b i)
    rw [sub_add_cancel] at h2
    have h3 := hab i
    generalize |diffQ (a i) (b i)| = w at *
    generalize |diffQ (a i) (b i) - (a i - b i)| = w' at *
    generalize |a i - b i| = w'' at *
    norm_num at *
    linarith
  rw [hdiff] at hs
  generalize hE : (fun i => diffQ (a i) (b i)) = e at *
  have hE' : ∀ i, diffQ (a i) (b i) = e i := fun i => congrFun hE i
  simp only [hE'] at hs herr he
  -- the exact matrix
  set C := Matrix.diagonal v with hCdef
  have hCF : (diagF fun k => .fin (v k)) = finMat C := (finMat_diagonal v).symm
  have hC : ∀ i j, |C i j| ≤ 2 ^ 16 := fun i j => by
    rw [hCdef, Matrix.diagonal_apply]
    split
    · rw [abs_of_pos (vp i)]; exact hv' i
    · norm_num
  have hdet : C.det = v 0 * v 1 * v 2 := det_diag3 v
  have hDp : 0 < v 0 * v 1 * v 2 := mul_pos (mul_pos (vp 0) (vp 1)) (vp 2)
  have hD : 1 / 2 ^ 40 ≤ |C.det| := by
    rw [hdet, abs_of_pos hDp]
    calc (1 / 2 ^ 40 : ℚ) ≤ 1 / 2 ^ 12 * (1 / 2 ^ 12) * (1 / 2 ^ 12) := by norm_num
      _ ≤ _ := mul_le_mul (mul_le_mul (hv 0) (hv 1) (by norm_num) (vp 0).le) (hv 2) (by norm_num)
        (mul_nonneg (vp 0).le (vp 1).le)
  have hK : absDet C ≤ 2 ^ 20 * |C.det| := by
    rw [hdet, abs_of_pos hDp, hCdef, absDet_diag v vp]
    exact le_mul_of_one_le_left hDp.le (by norm_num)
  have hd' := hd
  have hs' := hs
  rw [hCF] at hd' hs'
  obtain ⟨q, rfl, hq⟩ := square_err hC hD hK he hd' hs'
  rw [hCdef, cancellation_diag v vp, absForm_diag v vp, form_diag v vp, mul_one] at hq
  -- it is not negative
  have hq0 : 0 ≤ q := by
    obtain ⟨-, D', rfl, hD'⟩ := det_maj hC hd'
    obtain ⟨w, hw, -⟩ := recip_err hD (abs_det_le C) (absDet_le hC) hK hD'
    obtain ⟨h1, h2⟩ := diag_inverse (fun i => (vp i).le) hd hw
    exact (IsFormF.notNeg h1 h2 hs).2 q rfl
  refine ⟨binary32.sqrt q, if_neg (not_lt.2 hq0), binary32.sqrt_nonneg hq0, ?_⟩
  -- standard deviations
  have hvR : ∀ i, (0 : ℝ) < v i := fun i => by exact_mod_cast vp i
  have hsp : ∀ i, 0 < √(v i : ℝ) := fun i => Real.sqrt_pos.2 (hvR i)
  have hσR : (0 : ℝ) < σ := by exact_mod_cast hσ
  have hσs : ∀ i, (σ : ℝ) ≤ √(v i : ℝ) := fun i =>
    Real.le_sqrt_of_sq_le (by exact_mod_cast hσv i)
  have hD1 : exactMahalanobis v a b = norm3 (((a 0 : ℝ) - b 0) / √(v 0 : ℝ))
      (((a 1 : ℝ) - b 1) / √(v 1 : ℝ)) (((a 2 : ℝ) - b 2) / √(v 2 : ℝ)) := by
    unfold exactMahalanobis norm3
    rw [div_pow, div_pow, div_pow, Real.sq_sqrt (hvR 0).le, Real.sq_sqrt (hvR 1).le,
      Real.sq_sqrt (hvR 2).le]
  have hqR : |(q : ℝ) - norm3 (e 0 / √(v 0 : ℝ)) (e 1 / √(v 1 : ℝ)) (e 2 / √(v 2 : ℝ)) ^ 2| ≤
      26 / 2 ^ 24 * norm3 (e 0 / √(v 0 : ℝ)) (e 1 / √(v 1 : ℝ)) (e 2 / √(v 2 : ℝ)) ^ 2 +
        1 / 2 ^ 59 := by
    rw [norm3_sq, div_pow, div_pow, div_pow, Real.sq_sqrt (hvR 0).le, Real.sq_sqrt (hvR 1).le,
      Real.sq_sqrt (hvR 2).le]
    have h := (Rat.cast_le (K := ℝ)).2 hq
    push_cast at h
    exact h
  have hroot := root_close (by exact_mod_cast hq0) (norm3_nonneg _ _ _) hqR (b32_sqrt_std hq0)
  have hM0 : (0 : ℝ) ≤ M := by exact_mod_cast (zero_le_one.trans hM)
  have hpert : ∀ i, |(e i : ℝ) / √(v i : ℝ) - ((a i : ℝ) - b i) / √(v i : ℝ)| ≤
      1 / 2 ^ 24 * |((a i : ℝ) - b i) / √(v i : ℝ)| + 201 / 100 / 2 ^ 24 * (M / σ) := fun i => by
    have h1 := (Rat.cast_le (K := ℝ)).2 (herr i)
    push_cast at h1
    rw [← sub_div, abs_div, abs_div, abs_of_pos (hsp i)]
    have h2 : (M : ℝ) / √(v i : ℝ) ≤ M / σ := div_le_div_of_nonneg_left hM0 hσR (hσs i)
    have h3 := div_le_div_of_nonneg_right h1 (hsp i).le
    rw [add_div, mul_div_assoc, div_right_comm] at h3
    have h4 := mul_le_mul_of_nonneg_left h2 (show (0 : ℝ) ≤ 201 / 100 / 2 ^ 24 by norm_num)
    rw [one_div_mul_eq_div]
    linarith
  have hp := norm3_perturb (by norm_num) (by positivity) (hpert 0) (hpert 1) (hpert 2)
  rw [← hD1] at hp
  have hDn : 0 ≤ exactMahalanobis v a b := Real.sqrt_nonneg _
  have e1 : (M : ℝ) / (2 ^ 22 * σ) = 4 / 2 ^ 24 * (M / σ) := by
    field_simp
    norm_num
  rw [e1]
  have hMσ : (0 : ℝ) ≤ M / σ := div_nonneg hM0 hσR.le
  generalize (M : ℝ) / σ = m at *
  generalize norm3 (e 0 / √(v 0 : ℝ)) (e 1 / √(v 1 : ℝ)) (e 2 / √(v 2 : ℝ)) = De at *
  generalize exactMahalanobis v a b = D at *
  generalize ((binary32.sqrt q : ℚ) : ℝ) = ρ at *
  have h3 := abs_add_le (ρ - De) (De - D)
  rw [sub_add_sub_cancel] at h3
  have h4 := (abs_le.1 hp).2
  generalize |ρ - De| = w1 at *
  generalize |De - D| = w2 at *
  norm_num at *
  linarith

/-- C97: a quarter of a metre and of a radian, coordinates up to a kilometre -/
example {a b : Fin 3 → ℚ} (ha : ∀ i, |a i| ≤ 1024) (hb : ∀ i, |b i| ≤ 1024) {r : FP}
    (h : IsMahalanobisF (diagF fun _ => .fin (1 / 16)) (finPose a) (finPose b) r) :
    ∃ ρ : ℚ, r = .fin ρ ∧ 0 ≤ ρ ∧ |(ρ : ℝ) - exactMahalanobis (fun _ => 1 / 16) a b| ≤
      exactMahalanobis (fun _ => 1 / 16) a b / 2 ^ 19 + 1 / 2 ^ 9 := by
  obtain ⟨ρ, h1, h2, h3⟩ := C97_diagonal (v := fun _ => 1 / 16) (σ := 1 / 4) (M := 1024)
    (fun _ => by norm_num) (fun _ => by norm_num) (by norm_num) (fun _ => by norm_num) (by norm_num)
    (by norm_num) ha hb (fun i => (abs_sub _ _).trans (by
      have := ha i; have := hb i; norm_num; linarith)) h
  refine ⟨ρ, h1, h2, h3.trans ?_⟩
  push_cast
  norm_num
  linarith

/-- C97: variances of at most 2⁻⁵¹: the determinant underflows to 0 and no score is finite. -/
theorem C97_underflow {v : Fin 3 → ℚ} (hv : ∀ i, 0 ≤ v i) (hv' : ∀ i, v i ≤ 1 / 2 ^ 51) {p q : FPose}
    {r : FP} (h : IsMahalanobisF (diagF fun k => .fin (v k)) p q r) : ∀ x, r ≠ .fin x := by
  refine C97_singular (fun d hd => ?_) h
  refine SumsTo.zero hd fun a ha => ?_
  simp only [List.mem_cons, List.not_mem_nil, or_false] at ha
  rcases ha with rfl | rfl | rfl
  · rw [cofactor_diag]
    have hp : v (0 + 1) * v (0 + 2) ≤ 1 / 2 ^ 102 :=
      (mul_le_mul (hv' _) (hv' _) (hv _) (by norm_num)).trans (by norm_num)
    have hp0 : 0 ≤ v (0 + 1) * v (0 + 2) := mul_nonneg (hv _) (hv _)
    have hm : FP.mul binary32 (.fin (v (0 + 1))) (.fin (v (0 + 2))) =
        .fin (binary32.round (v (0 + 1) * v (0 + 2))) :=
      b32_ofRat (by rw [abs_of_nonneg hp0]; refine hp.trans ?_; norm_num)
    rw [hm]
    have r0 := binary32.round_nonneg hp0
    have r1 := binary32.round_mono (by decide) hp0 hp
    have r2 : binary32.round (1 / 2 ^ 102) = 1 / 2 ^ 102 := by decide +kernel
    rw [r2] at r1
    generalize binary32.round (v (0 + 1) * v (0 + 2)) = x at *
    have hsub : FP.sub binary32 (.fin x) (.fin 0) = .fin (binary32.round (x - 0)) :=
      b32_ofRat (by rw [sub_zero, abs_of_nonneg r0]; refine r1.trans ?_; norm_num)
    rw [hsub, sub_zero]
    have s0 := binary32.round_nonneg r0
    have s1 := binary32.round_mono (by decide) r0 r1
    rw [r2] at s1
    generalize binary32.round x = y at *
    show FP.ofRat binary32 (y * v 0) = _
    exact b32_ofRat_tiny (mul_nonneg s0 (hv 0))
      ((mul_le_mul s1 (hv' 0) (hv 0) (by norm_num)).trans (by norm_num))
  · rw [cofactor_offdiag _ (by decide)]; exact zero_mul_fin _ _
  · rw [cofactor_offdiag _ (by decide)]; exact zero_mul_fin _ _

/-- C97: standard deviations of 10 nanometres and 10⁻⁸ rad -/
example {p q : FPose} {r : FP} (h : IsMahalanobisF (diagF fun _ => .fin (1 / 2 ^ 53)) p q r) :
    ∀ x, r ≠ .fin x :=
  C97_underflow (v := fun _ => 1 / 2 ^ 53) (fun _ => by norm_num) (fun _ => by norm_num) h

/-- C97: variances from 2⁴³ to 2⁶³: the determinant overflows, the computed inverse is 0, and so is
the score of any two poses with coordinates and headings of magnitude at most 2⁶⁰. -/
theorem C97_overflow {v : Fin 3 → ℚ} (hv : ∀ i, 2 ^ 43 ≤ v i) (hv' : ∀ i, v i ≤ 2 ^ 63)
    {a b : Fin 3 → ℚ} (ha : ∀ i, |a i| ≤ 2 ^ 60) (hb : ∀ i, |b i| ≤ 2 ^ 60) {r : FP}
    (h : IsMahalanobisF (diagF fun k => .fin (v k)) (finPose a) (finPose b) r) : r = .fin 0 := by
  obtain ⟨d, hd, s, hs, rfl⟩ := h
  have vp : ∀ i, 0 < v i := fun i => lt_of_lt_of_le (by norm_num) (hv i)
  have hcof : ∀ i, ∃ c, cofactorF (diagF fun k => .fin (v k)) i i = .fin c ∧ 2 ^ 86 ≤ c := by
    intro i
    rw [cofactor_diag]
    have hp : v (i + 1) * v (i + 2) ≤ 2 ^ 126 :=
      (mul_le_mul (hv' _) (hv' _) (vp _).le (by norm_num)).trans (by norm_num)
    have hl : 2 ^ 86 ≤ v (i + 1) * v (i + 2) :=
      le_trans (by norm_num) (mul_le_mul (hv (i + 1)) (hv (i + 2)) (by norm_num) (vp _).le)
    have hp0 : 0 ≤ v (i + 1) * v (i + 2) := mul_nonneg (vp _).le (vp _).le
    have hm : FP.mul binary32 (.fin (v (i + 1))) (.fin (v (i + 2))) =
        .fin (binary32.round (v (i + 1) * v (i + 2))) :=
      b32_ofRat (by rw [abs_of_nonneg hp0]; refine hp.trans ?_; norm_num)
    rw [hm]
    have r1 := binary32.round_mono (by decide) hp0 hp
    have r0 := binary32.round_mono (by decide) (by norm_num) hl
    have e1 : binary32.round (2 ^ 126) = 2 ^ 126 := by decide +kernel
    have e0 : binary32.round (2 ^ 86) = 2 ^ 86 := by decide +kernel
    rw [e1] at r1
    rw [e0] at r0
    generalize binary32.round (v (i + 1) * v (i + 2)) = x at *
    have x0 : 0 ≤ x := le_trans (by norm_num) r0
    refine ⟨binary32.round (x - 0), ?_, ?_⟩
    · exact b32_ofRat (by rw [sub_zero, abs_of_nonneg x0]; refine r1.trans ?_; norm_num)
    · rw [sub_zero]
      have := binary32.round_mono (by decide) (by norm_num) r0
      rwa [e0] at this
  have hdet : d = .inf false := by
    obtain ⟨c, hc, hc'⟩ := hcof 0
    have h0 : FP.mul binary32 (cofactorF (diagF fun k => .fin (v k)) 0 0)
        (diagF (fun k => .fin (v k)) 0 0) = .inf false := by
      rw [hc]
      show FP.ofRat binary32 (c * v 0) = _
      exact b32_ofRat_inf (le_trans (by norm_num) (mul_le_mul hc' (hv 0) (by norm_num)
        (le_trans (by norm_num) hc')))
    have h1 : FP.mul binary32 (cofactorF (diagF fun k => .fin (v k)) 1 0)
        (diagF (fun k => .fin (v k)) 1 0) = .fin 0 := by
      rw [cofactor_offdiag _ (by decide)]; exact zero_mul_fin _ _
    have h2 : FP.mul binary32 (cofactorF (diagF fun k => .fin (v k)) 2 0)
        (diagF (fun k => .fin (v k)) 2 0) = .fin 0 := by
      rw [cofactor_offdiag _ (by decide)]; exact zero_mul_fin _ _
    have hm := SumsTo.mem_sums3 hd
    rw [h0, h1, h2] at hm
    have key : ∀ x ∈ sums3 (.inf false) (.fin 0) (.fin 0), x = .inf false := by decide +kernel
    exact key d hm
  subst hdet
  have hA : ∀ i j, inverse3F (diagF fun k => .fin (v k)) (.inf false) i j = .fin 0 := by
    intro i j
    unfold inverse3F
    have e : FP.div binary32 (.fin 1) (.inf false) = .fin 0 := rfl
    rw [e]
    by_cases hij : j = i
    · subst hij
      obtain ⟨c, hc, -⟩ := hcof j
      rw [hc, fin_mul_zero]
    · rw [cofactor_offdiag _ hij, zero_mul_fin]
  have hdiff : ∀ i, ∃ x, poseDiffF (finPose a) (finPose b) i = .fin x := fun i => by
    have := sub_fin le_rfl (ha i) (hb i)
    refine ⟨diffQ (a i) (b i), ?_⟩
    fin_cases i <;> exact this
  obtain ⟨w, hw, hs⟩ := hs
  have hw0 : ∀ j, w j = .fin 0 := fun j => (hw j).zero fun x hx => by
    simp only [List.mem_cons, List.not_mem_nil, or_false] at hx
    rcases hx with rfl | rfl | rfl
    · obtain ⟨x, hx⟩ := hdiff 0; rw [hA, hx, fin_mul_zero]
    · obtain ⟨x, hx⟩ := hdiff 1; rw [hA, hx, fin_mul_zero]
    · obtain ⟨x, hx⟩ := hdiff 2; rw [hA, hx, fin_mul_zero]
  have hs0 : s = .fin 0 := SumsTo.zero hs fun x hx => by
    simp only [List.mem_cons, List.not_mem_nil, or_false] at hx
    rcases hx with rfl | rfl | rfl
    · obtain ⟨x, hx⟩ := hdiff 0; rw [hw0, hx, zero_mul_fin]
    · obtain ⟨x, hx⟩ := hdiff 1; rw [hw0, hx, zero_mul_fin]
    · obtain ⟨x, hx⟩ := hdiff 2; rw [hw0, hx, zero_mul_fin]
  rw [hs0]
  decide +kernel

/-- C97: variances of 10¹⁴, used to say that nothing is known -/
example {a b : Fin 3 → ℚ} (ha : ∀ i, |a i| ≤ 2 ^ 60) (hb : ∀ i, |b i| ≤ 2 ^ 60) {r : FP}
    (h : IsMahalanobisF (diagF fun _ => .fin (10 ^ 14)) (finPose a) (finPose b) r) : r = .fin 0 :=
  C97_overflow (v := fun _ => 10 ^ 14) (fun _ => by norm_num) (fun _ => by norm_num) ha hb h

end Mot.Props
