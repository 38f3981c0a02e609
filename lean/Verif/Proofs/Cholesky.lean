import Verif.Spec.Ukf
import Verif.Proofs.Matrix
import Mathlib.Analysis.Matrix.LDL
import Mathlib.LinearAlgebra.Matrix.Block
/-!
# Existence and uniqueness of the Cholesky factor
-/

namespace Mot

open Matrix Spec

variable {n : ℕ}

/-- the Cholesky factor is unique -/
theorem Spec.IsCholesky.unique {L L' P : Matrix (Fin n) (Fin n) ℝ} (h : IsCholesky L P)
    (h' : IsCholesky L' P) : L = L' := by
  have key : ∀ (m : ℕ) (j : Fin n), j.1 = m → ∀ i, L i j = L' i j := by
    intro m
    induction m using Nat.strong_induction_on with
    | _ m ih =>
      intro j hj
      have prod : ∀ i, L i j * L j j = L' i j * L' j j := by
        intro i
        have h1 := congrFun (congrFun h.factor i) j
        have h2 := congrFun (congrFun h'.factor i) j
        rw [mul_apply] at h1 h2
        have h3 : ∑ k, (L i k * L j k - L' i k * L' j k) = 0 := by
          rw [Finset.sum_sub_distrib]
          simp only [transpose_apply] at h1 h2
          rw [h1, h2, sub_self]
        rw [Finset.sum_eq_single j] at h3
        · linarith
        · intro k _ hk
          rcases lt_or_gt_of_ne hk with hlt | hgt
          · rw [ih k.1 (by omega) k rfl i, ih k.1 (by omega) k rfl j, sub_self]
          · rw [h.lower j k hgt, h'.lower j k hgt]; ring
        · intro hn; exact absurd (Finset.mem_univ _) hn
      have hd : L j j = L' j j := by
        have := prod j
        have a := h.diag j
        have b := h'.diag j
        nlinarith
      intro i
      have := prod i
      rw [← hd] at this
      exact mul_right_cancel₀ (h.diag j).ne' this
  ext i j
  exact key j.1 j rfl i

theorem Spec.IsCholesky.posDef {L P : Matrix (Fin n) (Fin n) ℝ} (h : IsCholesky L P) : P.PosDef := by
  have hdet : L.det ≠ 0 := by
    rw [det_of_isLowerTriangular (M := L) fun i j hij => h.lower i j hij]
    exact Finset.prod_ne_zero_iff.2 fun i _ => (h.diag i).ne'
  have hu : IsUnit L := (isUnit_iff_isUnit_det _).2 (isUnit_iff_ne_zero.2 hdet)
  have := (PosDef.one (n := Fin n) (R := ℝ)).conjTranspose_mul_mul_same (B := Lᵀ)
    (Matrix.mulVec_injective_of_isUnit (by
      rw [isUnit_iff_isUnit_det, det_transpose]; exact isUnit_iff_ne_zero.2 hdet))
  rw [conjTranspose_eq_transpose_of_trivial, transpose_transpose, mul_one, h.factor] at this
  exact this

/-- the Cholesky factor of a diagonal matrix -/
theorem isCholesky_diagonal {d : Fin n → ℝ} (hd : ∀ i, 0 < d i) :
    IsCholesky (diagonal fun i => √(d i)) (diagonal d) where
  lower i j hij := diagonal_apply_ne _ hij.ne
  diag i := by rw [diagonal_apply_eq]; exact Real.sqrt_pos.2 (hd i)
  factor := by
    rw [diagonal_transpose, diagonal_mul_diagonal]
    congr 1
    funext i
    exact Real.mul_self_sqrt (hd i).le

theorem exists_cholesky {P : Matrix (Fin n) (Fin n) ℝ} (hP : P.PosDef) : ∃ L, IsCholesky L P := by
  set W := LDL.lowerInv hP with hW
  let _ : Invertible W := LDL.invertibleLowerInv hP
  have hWu : IsUnit W.det := isUnit_det_of_invertible W
  have hWt : W.BlockTriangular OrderDual.toDual := fun i j hij =>
    LDL.lowerInv_triangular hP (OrderDual.toDual_lt_toDual.1 hij)
  have hIt : (W⁻¹).BlockTriangular OrderDual.toDual := blockTriangular_inv_of_blockTriangular hWt
  have hD : LDL.diag hP = W * P * Wᵀ := by
    rw [← conjTranspose_eq_transpose_of_trivial]; exact LDL.diag_eq_lowerInv_conj hP
  have hDp : (diagonal (LDL.diagEntries hP)).PosDef := by
    have := hP.conjTranspose_mul_mul_same (B := Wᵀ) (Matrix.mulVec_injective_of_isUnit (by
      rw [isUnit_iff_isUnit_det, det_transpose]; exact hWu))
    rw [conjTranspose_eq_transpose_of_trivial, transpose_transpose, ← hD] at this
    exact this
  have hd : ∀ i, 0 < LDL.diagEntries hP i := by
    intro i
    have := hDp.diag_pos (i := i)
    rwa [diagonal_apply_eq] at this
  set d := LDL.diagEntries hP with hdd
  have hPf : W⁻¹ * diagonal d * (W⁻¹)ᵀ = P := by
    have := LDL.lower_conj_diag hP
    rw [conjTranspose_eq_transpose_of_trivial] at this
    exact this
  set G := W⁻¹ * diagonal fun i => √(d i) with hG
  have hGl : ∀ i j, i < j → G i j = 0 := by
    intro i j hij
    rw [hG, mul_diagonal, hIt (OrderDual.toDual_lt_toDual.2 hij), zero_mul]
  have hGf : G * Gᵀ = P := by
    rw [hG, transpose_mul, diagonal_transpose]
    have : (diagonal fun i => √(d i)) * (diagonal fun i => √(d i)) = diagonal d := by
      rw [diagonal_mul_diagonal]
      congr 1
      funext i
      exact Real.mul_self_sqrt (hd i).le
    rw [mul_assoc, ← mul_assoc (diagonal fun i => √(d i)), this, ← mul_assoc, hPf]
  have hGd : ∀ i, G i i ≠ 0 := by
    have hdet : G.det ≠ 0 := by
      intro h0
      have := hP.det_pos
      rw [← hGf, det_mul, h0, zero_mul] at this
      exact lt_irrefl _ this
    rw [det_of_isLowerTriangular (M := G) fun i j hij => hGl i j hij] at hdet
    intro i
    exact Finset.prod_ne_zero_iff.1 hdet i (Finset.mem_univ _)
  refine ⟨G * diagonal fun i => |G i i| / G i i, ?_, ?_, ?_⟩
  · intro i j hij
    rw [mul_diagonal, hGl i j hij, zero_mul]
  · intro i
    rw [mul_diagonal, mul_div_cancel₀ _ (hGd i)]
    exact abs_pos.2 (hGd i)
  · rw [transpose_mul, diagonal_transpose, mul_assoc, ← mul_assoc (diagonal _), diagonal_mul_diagonal]
    have : (diagonal fun i => |G i i| / G i i * (|G i i| / G i i)) = 1 := by
      rw [← diagonal_one]
      congr 1
      funext i
      rw [div_mul_div_comm, abs_mul_abs_self]
      exact div_self (mul_ne_zero (hGd i) (hGd i))
    rw [this, one_mul, hGf]

open Classical in
/-- The contract of `llt` can be met. -/
theorem exists_llt : ∃ chol : Chol, IsLlt chol := by
  refine ⟨fun n P => if h : P.PosDef then (exists_cholesky h).choose else 0, ?_⟩
  intro n P hP
  simp only [dif_pos hP]
  exact (exists_cholesky hP).choose_spec

theorem Spec.IsLlt.diagonal {chol : Chol} (h : IsLlt chol) {d : Fin n → ℝ} (hd : ∀ i, 0 < d i) :
    chol n (Matrix.diagonal d) = Matrix.diagonal fun i => √(d i) :=
  (h n _ (isCholesky_diagonal hd).posDef).unique (isCholesky_diagonal hd)

end Mot
