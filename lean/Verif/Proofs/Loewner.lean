import Verif.Proofs.Fusing
import Verif.Spec.Fusing
/-!
# Inverses and the Loewner order
-/

namespace Mot

open Matrix Spec

section
variable {n : Type*} [Fintype n] [DecidableEq n]

/-- the quadratic form of the inverse is the greatest of these numbers -/
theorem two_dot_sub_le {A : Matrix n n ℝ} (hA : A.PosDef) (x y : n → ℝ) :
    2 * (x ⬝ᵥ y) - x ⬝ᵥ (A *ᵥ x) ≤ y ⬝ᵥ (A⁻¹ *ᵥ y) := by
  have hu : IsUnit A.det := isUnit_iff_ne_zero.2 hA.det_pos.ne'
  have h := quad_nonneg hA.posSemidef (x - A⁻¹ *ᵥ y)
  have e : A *ᵥ (x - A⁻¹ *ᵥ y) = A *ᵥ x - y := by
    rw [mulVec_sub, mulVec_mulVec, mul_nonsing_inv _ hu, one_mulVec]
  have ht : Aᵀ = A := by
    rw [← conjTranspose_eq_transpose_of_trivial]; exact hA.isHermitian
  have e2 : (A⁻¹ *ᵥ y) ⬝ᵥ (A *ᵥ x) = x ⬝ᵥ y := by
    rw [dotProduct_mulVec, ← mulVec_transpose, ht, mulVec_mulVec, mul_nonsing_inv _ hu, one_mulVec,
      dotProduct_comm]
  rw [e, sub_dotProduct, dotProduct_sub, dotProduct_sub, e2, dotProduct_comm (A⁻¹ *ᵥ y) y] at h
  linarith

theorem two_dot_sub_eq {A : Matrix n n ℝ} (hA : A.PosDef) (y : n → ℝ) :
    2 * ((A⁻¹ *ᵥ y) ⬝ᵥ y) - (A⁻¹ *ᵥ y) ⬝ᵥ (A *ᵥ (A⁻¹ *ᵥ y)) = y ⬝ᵥ (A⁻¹ *ᵥ y) := by
  have hu : IsUnit A.det := isUnit_iff_ne_zero.2 hA.det_pos.ne'
  rw [mulVec_mulVec, mul_nonsing_inv _ hu, one_mulVec, dotProduct_comm]
  ring

/-- inverting reverses the order -/
theorem inv_quad_le {A B : Matrix n n ℝ} (hA : A.PosDef) (hB : B.PosDef)
    (h : ∀ x, x ⬝ᵥ (A *ᵥ x) ≤ x ⬝ᵥ (B *ᵥ x)) (y : n → ℝ) :
    y ⬝ᵥ (B⁻¹ *ᵥ y) ≤ y ⬝ᵥ (A⁻¹ *ᵥ y) := by
  rw [← two_dot_sub_eq hB]
  have h1 := two_dot_sub_le hA (B⁻¹ *ᵥ y) y
  have h2 := h (B⁻¹ *ᵥ y)
  linarith

/-- inverting is convex -/
theorem inv_quad_convex {A B : Matrix n n ℝ} (hA : A.PosDef) (hB : B.PosDef) {w : ℝ} (h0 : 0 ≤ w)
    (h1 : w ≤ 1) (hM : (w • A + (1 - w) • B).PosDef) (y : n → ℝ) :
    y ⬝ᵥ ((w • A + (1 - w) • B)⁻¹ *ᵥ y) ≤
      w * (y ⬝ᵥ (A⁻¹ *ᵥ y)) + (1 - w) * (y ⬝ᵥ (B⁻¹ *ᵥ y)) := by
  rw [← two_dot_sub_eq hM]
  set x := (w • A + (1 - w) • B)⁻¹ *ᵥ y
  have h2 := mul_le_mul_of_nonneg_left (two_dot_sub_le hA x y) h0
  have h3 := mul_le_mul_of_nonneg_left (two_dot_sub_le hB x y) (by linarith : 0 ≤ 1 - w)
  rw [add_mulVec, smul_mulVec, smul_mulVec, dotProduct_add, dotProduct_smul, dotProduct_smul,
    smul_eq_mul, smul_eq_mul]
  nlinarith

end

section
variable {n : ℕ}

theorem covLE_iff {A B : Matrix (Fin n) (Fin n) ℝ} (hA : A.IsHermitian) (hB : B.IsHermitian) :
    CovLE A B ↔ ∀ x, x ⬝ᵥ (A *ᵥ x) ≤ x ⬝ᵥ (B *ᵥ x) := by
  constructor
  · intro h x
    have := quad_nonneg h x
    rw [sub_mulVec, dotProduct_sub] at this
    linarith
  · intro h
    refine PosSemidef.of_dotProduct_mulVec_nonneg (hB.sub hA) fun x => ?_
    rw [star_trivial, sub_mulVec, dotProduct_sub]
    linarith [h x]

theorem covLE_inv {A B : Matrix (Fin n) (Fin n) ℝ} (hA : A.PosDef) (hB : B.PosDef) (h : CovLE A B) :
    CovLE B⁻¹ A⁻¹ :=
  (covLE_iff hB.inv.isHermitian hA.inv.isHermitian).2
    (inv_quad_le hA hB ((covLE_iff hA.isHermitian hB.isHermitian).1 h))

theorem quad_combination (A B : Matrix (Fin n) (Fin n) ℝ) (w : ℝ) (x : Fin n → ℝ) :
    x ⬝ᵥ ((w • A + (1 - w) • B) *ᵥ x) = w * (x ⬝ᵥ (A *ᵥ x)) + (1 - w) * (x ⬝ᵥ (B *ᵥ x)) := by
  rw [add_mulVec, smul_mulVec, smul_mulVec, dotProduct_add, dotProduct_smul, dotProduct_smul,
    smul_eq_mul, smul_eq_mul]

theorem fused_mean_same [NeZero n] {P Q : Matrix (Fin n) (Fin n) ℝ} (hP : P.PosDef) (hQ : Q.PosDef)
    (m : Fin n → ℝ) :
    (fuseInfo P Q)⁻¹ *ᵥ (fuseWeight P Q • (P⁻¹ *ᵥ m) + (1 - fuseWeight P Q) • (Q⁻¹ *ᵥ m)) = m := by
  have e : fuseWeight P Q • (P⁻¹ *ᵥ m) + (1 - fuseWeight P Q) • (Q⁻¹ *ᵥ m) = fuseInfo P Q *ᵥ m := by
    unfold fuseInfo
    rw [add_mulVec, smul_mulVec, smul_mulVec]
  rw [e, mulVec_mulVec, nonsing_inv_mul _ (PosDef.isUnit_det (fuseInfo_posDef hP hQ)), one_mulVec]

end

end Mot
