import Verif.Proofs.Loewner
import Mathlib.Algebra.Order.BigOperators.Ring.Finset
/-!
# How much uncertainty covariance intersection may add
-/

namespace Mot

open Matrix Spec

section
variable {n : Type*} [Fintype n] [DecidableEq n]

omit [Fintype n] in
theorem one_add_sum_le_prod {s : Finset n} {f : n → ℝ} (hf : ∀ i, 0 ≤ f i) :
    1 + ∑ i ∈ s, f i ≤ ∏ i ∈ s, (1 + f i) := by
  induction s using Finset.induction_on with
  | empty => simp
  | insert a s ha ih =>
    rw [Finset.sum_insert ha, Finset.prod_insert ha]
    have h1 : 0 ≤ ∑ i ∈ s, f i := Finset.sum_nonneg fun i _ => hf i
    have h2 := hf a
    have h3 : (1 + f a) * (1 + ∑ i ∈ s, f i) ≤ (1 + f a) * ∏ i ∈ s, (1 + f i) :=
      mul_le_mul_of_nonneg_left ih (by linarith)
    nlinarith [mul_nonneg h2 h1]

theorem one_add_trace_le_det {M : Matrix n n ℝ} (hM : M.PosSemidef) : 1 + M.trace ≤ (1 + M).det := by
  have hs := hM.isHermitian.spectral_theorem
  rw [Unitary.conjStarAlgAut_apply] at hs
  set U : Matrix n n ℝ := (hM.isHermitian.eigenvectorUnitary : Matrix n n ℝ) with hU
  have hUU : U * star U = 1 := Unitary.coe_mul_star_self hM.isHermitian.eigenvectorUnitary
  have e : 1 + M = U * (1 + diagonal hM.isHermitian.eigenvalues) * star U := by
    rw [mul_add, add_mul, mul_one, hUU]
    congr 1
  have hdet : U.det * (star U).det = 1 := by rw [← det_mul, hUU, det_one]
  have hd : (1 + M).det = ∏ i, (1 + hM.isHermitian.eigenvalues i) := by
    rw [e, det_mul, det_mul, mul_right_comm, hdet, one_mul, ← diagonal_one, diagonal_add, det_diagonal]
  have ht : M.trace = ∑ i, hM.isHermitian.eigenvalues i := by
    simpa using hM.isHermitian.trace_eq_sum_eigenvalues
  rw [hd, ht]
  exact one_add_sum_le_prod fun i => hM.eigenvalues_nonneg i

omit [DecidableEq n] in
theorem quad_le_trace {M : Matrix n n ℝ} (hM : M.PosSemidef) (y : n → ℝ) :
    y ⬝ᵥ (M *ᵥ y) ≤ M.trace * (y ⬝ᵥ y) := by
  classical
  obtain ⟨N, rfl⟩ := exists_factor hM
  rw [quad_factor]
  have h1 : (Nᵀ * N).trace = ∑ i, ∑ j, N i j ^ 2 := by
    rw [trace, Finset.sum_comm]
    refine Finset.sum_congr rfl fun j _ => ?_
    simp only [diag_apply, mul_apply, transpose_apply, pow_two]
  rw [h1, Finset.sum_mul]
  show ∑ i, (N *ᵥ y) i * (N *ᵥ y) i ≤ _
  refine Finset.sum_le_sum fun i _ => ?_
  have := Finset.sum_mul_sq_le_sq_mul_sq Finset.univ (fun j => N i j) y
  have e1 : (N *ᵥ y) i = ∑ j, N i j * y j := rfl
  have e2 : y ⬝ᵥ y = ∑ j, y j ^ 2 := by simp only [dotProduct, pow_two]
  rw [← pow_two, e1, e2]
  exact this

/-- adding `B` multiplies the determinant of `A` at least as much as it stretches any direction -/
theorem det_add_quad {A B : Matrix n n ℝ} (hA : A.PosDef) (hB : B.PosSemidef) (x : n → ℝ) :
    A.det * (x ⬝ᵥ (A *ᵥ x) + x ⬝ᵥ (B *ᵥ x)) ≤ (A + B).det * (x ⬝ᵥ (A *ᵥ x)) := by
  obtain ⟨C, hC⟩ := exists_factor hA.posSemidef
  have hdA := hA.det_pos
  have hdC : C.det ≠ 0 := by
    intro h
    rw [hC, det_mul, h, mul_zero] at hdA
    exact lt_irrefl _ hdA
  have hu : IsUnit C.det := isUnit_iff_ne_zero.2 hdC
  have hM : ((C⁻¹)ᵀ * B * C⁻¹).PosSemidef := by
    have := hB.conjTranspose_mul_mul_same C⁻¹
    rwa [conjTranspose_eq_transpose_of_trivial] at this
  have e0 : B = Cᵀ * ((C⁻¹)ᵀ * B * C⁻¹) * C := by
    rw [← mul_assoc, ← mul_assoc, ← transpose_mul, nonsing_inv_mul _ hu, transpose_one, one_mul,
      mul_assoc, nonsing_inv_mul _ hu, mul_one]
  have e : A + B = Cᵀ * (1 + (C⁻¹)ᵀ * B * C⁻¹) * C := by
    rw [mul_add, add_mul, mul_one, ← hC]
    congr 1
  have h2 : (A + B).det = A.det * (1 + (C⁻¹)ᵀ * B * C⁻¹).det := by
    rw [e, det_mul, det_mul, hC, det_mul]; ring
  have hxA : x ⬝ᵥ (A *ᵥ x) = (C *ᵥ x) ⬝ᵥ (C *ᵥ x) := by rw [hC, quad_factor]
  have hxB : x ⬝ᵥ (B *ᵥ x) = (C *ᵥ x) ⬝ᵥ (((C⁻¹)ᵀ * B * C⁻¹) *ᵥ (C *ᵥ x)) := by
    conv_lhs => rw [e0]
    rw [← mulVec_mulVec, ← mulVec_mulVec, dotProduct_mulVec, vecMul_transpose]
  have h3 := one_add_trace_le_det hM
  have h4 := quad_le_trace hM (C *ᵥ x)
  have h5 : 0 ≤ (C *ᵥ x) ⬝ᵥ (C *ᵥ x) := by rw [← hxA]; exact quad_nonneg hA.posSemidef x
  rw [h2, hxA, hxB, mul_assoc A.det]
  refine mul_le_mul_of_nonneg_left ?_ hdA.le
  nlinarith

end

section
variable {n : ℕ}

/-- the combined information is at least half of either -/
theorem fuseInfo_half [NeZero n] {P Q : Matrix (Fin n) (Fin n) ℝ} (hP : P.PosDef) (hQ : Q.PosDef) (x : Fin n → ℝ) :
    x ⬝ᵥ (P⁻¹ *ᵥ x) ≤ 2 * (x ⬝ᵥ (fuseInfo P Q *ᵥ x)) ∧ x ⬝ᵥ (Q⁻¹ *ᵥ x) ≤ 2 * (x ⬝ᵥ (fuseInfo P Q *ᵥ x)) := by
  have h1 := det_lt_det_add hP.inv hQ.inv
  have h2 := det_lt_det_add hQ.inv hP.inv
  rw [add_comm Q⁻¹] at h2
  have p1 := hP.inv.det_pos
  have p2 := hQ.inv.det_pos
  have q1 := det_add_quad hP.inv hQ.inv.posSemidef x
  have q2 := det_add_quad hQ.inv hP.inv.posSemidef x
  rw [add_comm Q⁻¹] at q2
  have a0 := quad_nonneg hP.inv.posSemidef x
  have b0 := quad_nonneg hQ.inv.posSemidef x
  have e : x ⬝ᵥ (fuseInfo P Q *ᵥ x) = _ := quad_combination _ _ _ x
  have hw : fuseWeight P Q * (2 * (P⁻¹ + Q⁻¹).det) = (P⁻¹ + Q⁻¹).det - Q⁻¹.det + P⁻¹.det := by
    have : (2 * (P⁻¹ + Q⁻¹).det) ≠ 0 := by linarith
    unfold fuseWeight
    exact div_mul_cancel₀ _ this
  rw [e]
  generalize (P⁻¹ + Q⁻¹).det = dS at *
  generalize P⁻¹.det = d1 at *
  generalize Q⁻¹.det = d2 at *
  generalize x ⬝ᵥ (P⁻¹ *ᵥ x) = a at *
  generalize x ⬝ᵥ (Q⁻¹ *ᵥ x) = b at *
  generalize fuseWeight P Q = w at *
  have hd : 0 < dS := by linarith
  constructor
  · refine le_of_mul_le_mul_left ?_ hd
    have e1 : dS * (2 * (w * a + (1 - w) * b)) = (w * (2 * dS)) * a + (2 * dS - w * (2 * dS)) * b := by ring
    rw [e1, hw]
    nlinarith [mul_nonneg p1.le a0, mul_nonneg p2.le b0, mul_nonneg (sub_nonneg.2 h1.le) b0, mul_nonneg p2.le a0]
  · refine le_of_mul_le_mul_left ?_ hd
    have e1 : dS * (2 * (w * a + (1 - w) * b)) = (w * (2 * dS)) * a + (2 * dS - w * (2 * dS)) * b := by ring
    rw [e1, hw]
    nlinarith [mul_nonneg p1.le a0, mul_nonneg p2.le b0, mul_nonneg (sub_nonneg.2 h2.le) a0, mul_nonneg p1.le b0]

theorem fused_double [NeZero n] {P Q : Matrix (Fin n) (Fin n) ℝ} (hP : P.PosDef) (hQ : Q.PosDef) :
    CovLE (fuseInfo P Q)⁻¹ ((2 : ℝ) • P) ∧ CovLE (fuseInfo P Q)⁻¹ ((2 : ℝ) • Q) := by
  have hI := fuseInfo_posDef hP hQ
  have key : ∀ {X : Matrix (Fin n) (Fin n) ℝ}, X.PosDef → (∀ x, x ⬝ᵥ (X⁻¹ *ᵥ x) ≤ 2 * (x ⬝ᵥ (fuseInfo P Q *ᵥ x))) →
      CovLE (fuseInfo P Q)⁻¹ ((2 : ℝ) • X) := by
    intro X hX h
    have hX2 : ((2 : ℝ) • X).PosDef := hX.smul (by norm_num)
    have h1 : ((2 : ℝ) • X)⁻¹ = (1 / 2 : ℝ) • X⁻¹ := by
      refine inv_eq_left_inv ?_
      rw [smul_mul_smul_comm, nonsing_inv_mul _ (PosDef.isUnit_det hX)]
      norm_num
    have h2 : CovLE ((2 : ℝ) • X)⁻¹ (fuseInfo P Q) := by
      refine (covLE_iff hX2.inv.isHermitian hI.isHermitian).2 fun x => ?_
      rw [h1, smul_mulVec, dotProduct_smul, smul_eq_mul]
      linarith [h x]
    have h3 := covLE_inv hX2.inv hI h2
    rwa [nonsing_inv_nonsing_inv _ (PosDef.isUnit_det hX2)] at h3
  exact ⟨key hP fun x => (fuseInfo_half hP hQ x).1, key hQ fun x => (fuseInfo_half hP hQ x).2⟩

/-- the error of the combination, in its own metric -/
theorem fused_error [NeZero n] {P Q : Matrix (Fin n) (Fin n) ℝ} (hP : P.PosDef) (hQ : Q.PosDef) {w : ℝ} (h0 : 0 < w)
    (h1 : w < 1) (m₁ m₂ v x : Fin n → ℝ)
    (hv : (w • P⁻¹ + (1 - w) • Q⁻¹) *ᵥ v = w • (P⁻¹ *ᵥ m₁) + (1 - w) • (Q⁻¹ *ᵥ m₂)) :
    (x - v) ⬝ᵥ ((w • P⁻¹ + (1 - w) • Q⁻¹) *ᵥ (x - v)) ≤
      w * ((x - m₁) ⬝ᵥ (P⁻¹ *ᵥ (x - m₁))) + (1 - w) * ((x - m₂) ⬝ᵥ (Q⁻¹ *ᵥ (x - m₂))) := by
  have s1 := quad_nonneg hP.inv.posSemidef (v - m₁)
  have s2 := quad_nonneg hQ.inv.posSemidef (v - m₂)
  have symm : ∀ {X : Matrix (Fin n) (Fin n) ℝ}, X.PosDef → ∀ a b : Fin n → ℝ, a ⬝ᵥ (X⁻¹ *ᵥ b) = b ⬝ᵥ (X⁻¹ *ᵥ a) := by
    intro X hX a b
    have ht : (X⁻¹)ᵀ = X⁻¹ := by rw [← conjTranspose_eq_transpose_of_trivial]; exact hX.inv.isHermitian
    rw [dotProduct_mulVec, ← mulVec_transpose, ht, dotProduct_comm]
  have hI : (x - v) ⬝ᵥ ((w • P⁻¹ + (1 - w) • Q⁻¹) *ᵥ (x - v)) =
      w * ((x - v) ⬝ᵥ (P⁻¹ *ᵥ (x - m₁))) + (1 - w) * ((x - v) ⬝ᵥ (Q⁻¹ *ᵥ (x - m₂))) := by
    rw [mulVec_sub, hv, mulVec_sub, mulVec_sub, add_mulVec, smul_mulVec, smul_mulVec]
    simp only [dotProduct_sub, dotProduct_add, dotProduct_smul, smul_eq_mul]
    ring
  have hI2 := quad_combination P⁻¹ Q⁻¹ w (x - v)
  have e1 : ∀ {X : Matrix (Fin n) (Fin n) ℝ}, X.PosDef → ∀ m : Fin n → ℝ, (v - m) ⬝ᵥ (X⁻¹ *ᵥ (v - m)) =
      (x - m) ⬝ᵥ (X⁻¹ *ᵥ (x - m)) - 2 * ((x - v) ⬝ᵥ (X⁻¹ *ᵥ (x - m))) + (x - v) ⬝ᵥ (X⁻¹ *ᵥ (x - v)) := by
    intro X hX m
    have : v - m = (x - m) - (x - v) := by abel
    have hs := symm hX (x - m) (x - v)
    rw [this]
    generalize x - m = p at hs ⊢
    generalize x - v = q at hs ⊢
    rw [mulVec_sub, dotProduct_sub, sub_dotProduct, sub_dotProduct, hs]
    ring
  rw [e1 hP] at s1
  rw [e1 hQ] at s2
  nlinarith

end

end Mot
