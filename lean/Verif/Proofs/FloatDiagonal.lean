import Verif.Proofs.FloatInverse
import Mathlib.LinearAlgebra.Matrix.Diagonal
/-!
# The Mahalanobis score for a diagonal covariance
-/

namespace Mot

open Spec Matrix

/-! ### Sign -/

theorem FP.NotNeg.mul {f : Fmt} {a b : FP} (ha : a.NotNeg) (hb : b.NotNeg) :
    (FP.mul f a b).NotNeg := by
  obtain ⟨a1, a2⟩ := ha
  obtain ⟨b1, b2⟩ := hb
  cases a with
  | nan => rw [nan_mul]; exact ⟨by simp, by simp⟩
  | inf s =>
    cases s with
    | true => exact absurd rfl a1
    | false =>
      cases b with
      | nan => exact ⟨by simp [FP.mul], by simp [FP.mul]⟩
      | inf t =>
        cases t with
        | true => exact absurd rfl b1
        | false => exact ⟨by simp [FP.mul], by simp [FP.mul]⟩
      | fin q =>
        by_cases h : q = 0
        · exact ⟨by simp [FP.mul, h], by simp [FP.mul, h]⟩
        · exact ⟨by simp [FP.mul, h, b2 q rfl], by simp [FP.mul, h]⟩
  | fin q =>
    cases b with
    | nan => exact ⟨by simp [FP.mul], by simp [FP.mul]⟩
    | inf t =>
      cases t with
      | true => exact absurd rfl b1
      | false =>
        by_cases h : q = 0
        · exact ⟨by simp [FP.mul, h], by simp [FP.mul, h]⟩
        · exact ⟨by simp [FP.mul, h, a2 q rfl], by simp [FP.mul, h]⟩
    | fin r => exact notNeg_ofRat (mul_nonneg (a2 q rfl) (b2 r rfl))

theorem notNeg_fin {q : ℚ} (h : 0 ≤ q) : (FP.fin q).NotNeg :=
  ⟨by simp, fun _ hq => by cases hq; exact h⟩

theorem notNeg_sub_zero {f : Fmt} {a : FP} (ha : a.NotNeg) : (FP.sub f a (.fin 0)).NotNeg := by
  cases a with
  | nan => exact ⟨by simp [FP.sub], by simp [FP.sub]⟩
  | inf s => exact ha
  | fin q =>
    show (FP.ofRat f (q - 0)).NotNeg
    exact notNeg_ofRat (by rw [sub_zero]; exact ha.2 q rfl)

/-- a diagonal form is not negative -/
theorem IsFormF.notNeg {A : Fin 3 → Fin 3 → FP} {e : Fin 3 → ℚ} {s : FP}
    (hoff : ∀ i j, i ≠ j → A i j = .fin 0) (hA : ∀ i, (A i i).NotNeg)
    (h : IsFormF A (fun i => .fin (e i)) s) : s.NotNeg := by
  obtain ⟨v, hv, hs⟩ := h
  have hterm : ∀ j, (FP.mul binary32 (v j) (.fin (e j))).NotNeg := by
    intro j
    -- the terms of the row have the sign of `e j`
    have pos : ∀ (e : Fin 3 → ℚ) (v : FP), 0 ≤ e j →
        SumsTo binary32 [FP.mul binary32 (.fin (e 0)) (A 0 j), FP.mul binary32 (.fin (e 1)) (A 1 j),
          FP.mul binary32 (.fin (e 2)) (A 2 j)] v → v.NotNeg := by
      intro e v he h
      have t : ∀ i, (FP.mul binary32 (.fin (e i)) (A i j)).NotNeg := by
        intro i
        by_cases hij : i = j
        · subst hij
          exact (notNeg_fin he).mul (hA i)
        · rw [hoff i j hij, fin_mul_zero]
          exact notNeg_fin le_rfl
      refine h.notNeg fun a ha => ?_
      simp only [List.mem_cons, List.not_mem_nil, or_false] at ha
      rcases ha with rfl | rfl | rfl <;> exact t _
    rcases le_total 0 (e j) with he | he
    · exact (pos e (v j) he (hv j)).mul (notNeg_fin he)
    · have h' := (hv j).neg
      simp only [List.map_cons, List.map_nil, ← mul_neg_left] at h'
      have hp := pos (fun i => - e i) (v j).neg (neg_nonneg.2 he) h'
      have := hp.mul (f := binary32) (notNeg_fin (neg_nonneg.2 he))
      have e2 : FP.fin (- e j) = (FP.fin (e j)).neg := rfl
      rw [e2, mul_neg_left, mul_neg_right, neg_neg'] at this
      exact this
  refine SumsTo.notNeg hs fun a ha => ?_
  simp only [List.mem_cons, List.not_mem_nil, or_false] at ha
  rcases ha with rfl | rfl | rfl <;> exact hterm _

/-! ### Diagonal matrices -/

theorem finMat_diagonal (v : Fin 3 → ℚ) :
    finMat (diagonal v) = diagF fun k => .fin (v k) := by
  funext i j
  unfold finMat diagF
  by_cases h : i = j
  · subst h; simp
  · simp [h]

theorem notNeg_one_div {f : Fmt} {d : FP} (h : d.NotNeg) : (FP.div f (.fin 1) d).NotNeg := by
  cases d with
  | nan => exact ⟨by simp [FP.div], by simp [FP.div]⟩
  | inf s => exact notNeg_fin le_rfl
  | fin q =>
    by_cases hq : q = 0
    · subst hq
      simp [FP.div, FP.NotNeg]
    · simp only [FP.div, if_neg hq]
      exact notNeg_ofRat (div_nonneg zero_le_one (h.2 q rfl))

theorem diag_det_notNeg {v : Fin 3 → ℚ} (hv : ∀ i, 0 ≤ v i) {d : FP}
    (h : IsDet3F (diagF fun k => .fin (v k)) d) : d.NotNeg := by
  refine SumsTo.notNeg h fun a ha => ?_
  simp only [List.mem_cons, List.not_mem_nil, or_false] at ha
  rcases ha with rfl | rfl | rfl
  · rw [cofactor_diag]
    exact (notNeg_sub_zero ((notNeg_fin (hv _)).mul (notNeg_fin (hv _)))).mul (notNeg_fin (hv 0))
  · rw [cofactor_offdiag _ (by decide)]
    exact (notNeg_fin le_rfl).mul (notNeg_fin le_rfl)
  · rw [cofactor_offdiag _ (by decide)]
    exact (notNeg_fin le_rfl).mul (notNeg_fin le_rfl)

theorem diag_inverse {v : Fin 3 → ℚ} (hv : ∀ i, 0 ≤ v i) {d : FP}
    (h : IsDet3F (diagF fun k => .fin (v k)) d) {w : ℚ}
    (hd : FP.div binary32 (.fin 1) d = .fin w) :
    (∀ i j, i ≠ j → inverse3F (diagF fun k => .fin (v k)) d i j = .fin 0) ∧
    ∀ i, (inverse3F (diagF fun k => .fin (v k)) d i i).NotNeg := by
  refine ⟨fun i j hij => ?_, fun i => ?_⟩
  · unfold inverse3F
    rw [cofactor_offdiag _ hij.symm, hd, zero_mul_fin]
  · unfold inverse3F
    rw [cofactor_diag]
    exact (notNeg_sub_zero ((notNeg_fin (hv _)).mul (notNeg_fin (hv _)))).mul
      (notNeg_one_div (diag_det_notNeg hv h))

section
variable (v : Fin 3 → ℚ)

theorem det_diag3 : (diagonal v).det = v 0 * v 1 * v 2 := by
  rw [det_diagonal, Fin.prod_univ_three]

theorem absCofactor_diag (hv : ∀ i, 0 < v i) (i j : Fin 3) :
    absCofactor (diagonal v) i j = if i = j then v (i + 1) * v (i + 2) else 0 := by
  have a0 := abs_of_pos (hv 0)
  have a1 := abs_of_pos (hv 1)
  have a2 := abs_of_pos (hv 2)
  fin_cases i <;> fin_cases j <;> simp [absCofactor, diagonal, a0, a1, a2]

theorem absDet_diag (hv : ∀ i, 0 < v i) : absDet (diagonal v) = v 0 * v 1 * v 2 := by
  unfold absDet
  rw [absCofactor_diag v hv, absCofactor_diag v hv, absCofactor_diag v hv]
  simp [abs_of_pos (hv 0), mul_assoc]

theorem cancellation_diag (hv : ∀ i, 0 < v i) : cancellation (diagonal v) = 1 := by
  have h : 0 < v 0 * v 1 * v 2 := mul_pos (mul_pos (hv 0) (hv 1)) (hv 2)
  unfold cancellation
  rw [absDet_diag v hv, det_diag3, abs_of_pos h, div_self h.ne']

theorem absForm_diag (hv : ∀ i, 0 < v i) (e : Fin 3 → ℚ) :
    absMahalanobisSq (diagonal v) e = e 0 ^ 2 / v 0 + e 1 ^ 2 / v 1 + e 2 ^ 2 / v 2 := by
  have h : 0 < v 0 * v 1 * v 2 := mul_pos (mul_pos (hv 0) (hv 1)) (hv 2)
  have h0 := (hv 0).ne'
  have h1 := (hv 1).ne'
  have h2 := (hv 2).ne'
  unfold absMahalanobisSq
  simp only [absCofactor_diag v hv, det_diag3, abs_of_pos h, Fin.sum_univ_three]
  have key : ∀ i : Fin 3, ∀ c : ℚ, |e i| * c * |e i| = e i ^ 2 * c := fun i c => by
    rw [mul_right_comm, abs_mul_abs_self, pow_two]
  simp [key]
  field_simp

theorem form_diag (hv : ∀ i, 0 < v i) (e : Fin 3 → ℚ) :
    mahalanobisSq (diagonal v) e = e 0 ^ 2 / v 0 + e 1 ^ 2 / v 1 + e 2 ^ 2 / v 2 := by
  have h0 := (hv 0).ne'
  have h1 := (hv 1).ne'
  have h2 := (hv 2).ne'
  have hinv : (diagonal v)⁻¹ = diagonal fun i => (v i)⁻¹ := by
    refine inv_eq_right_inv ?_
    rw [diagonal_mul_diagonal]
    ext i j
    fin_cases i <;> fin_cases j <;> simp [h0, h1, h2]
  unfold mahalanobisSq
  rw [hinv]
  simp only [Fin.sum_univ_three]
  simp [diagonal]
  ring

end

/-! ### Overflow and underflow -/

theorem b32_ofRat_inf {x : ℚ} (h : 2 ^ 128 ≤ x) : FP.ofRat binary32 x = .inf false := by
  have hov := binary32.overflow_iff (by decide) (by decide) (by decide +kernel) (by decide) x
  have hx : 0 ≤ x := le_trans (by norm_num) h
  have : ¬ |binary32.round x| < 2 ^ binary32.emax := fun hh => by
    have := hov.1 hh
    rw [abs_of_nonneg hx] at this
    simp only [binary32] at this
    norm_num at this h
    linarith
  unfold FP.ofRat
  rw [if_neg this, decide_eq_false (not_lt.2 hx)]

theorem b32_ofRat_tiny {x : ℚ} (h0 : 0 ≤ x) (h : x ≤ 1 / 2 ^ 150) : FP.ofRat binary32 x = .fin 0 := by
  have h1 := binary32.round_mono (by decide) h0 h
  have h2 : binary32.round (1 / 2 ^ 150) = 0 := by decide +kernel
  have h3 := binary32.round_nonneg h0
  rw [b32_ofRat (by rw [abs_of_nonneg h0]; refine h.trans ?_; norm_num), le_antisymm (h2 ▸ h1) h3]

end Mot
