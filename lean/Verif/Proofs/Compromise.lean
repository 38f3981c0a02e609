import Verif.Proofs.Doubling
/-!
# Where the result of covariance intersection lies
-/

namespace Mot

open Matrix Spec

variable {n : ℕ}

/-- completing the square -/
theorem fused_square [NeZero n] {P Q : Matrix (Fin n) (Fin n) ℝ} (hP : P.PosDef) (hQ : Q.PosDef) {w : ℝ}
    (m₁ m₂ v x : Fin n → ℝ)
    (hv : (w • P⁻¹ + (1 - w) • Q⁻¹) *ᵥ v = w • (P⁻¹ *ᵥ m₁) + (1 - w) • (Q⁻¹ *ᵥ m₂)) :
    w * ((x - m₁) ⬝ᵥ (P⁻¹ *ᵥ (x - m₁))) + (1 - w) * ((x - m₂) ⬝ᵥ (Q⁻¹ *ᵥ (x - m₂))) =
      w * ((v - m₁) ⬝ᵥ (P⁻¹ *ᵥ (v - m₁))) + (1 - w) * ((v - m₂) ⬝ᵥ (Q⁻¹ *ᵥ (v - m₂))) +
      (x - v) ⬝ᵥ ((w • P⁻¹ + (1 - w) • Q⁻¹) *ᵥ (x - v)) := by
  have symm : ∀ {X : Matrix (Fin n) (Fin n) ℝ}, X.PosDef → ∀ a b : Fin n → ℝ, a ⬝ᵥ (X⁻¹ *ᵥ b) = b ⬝ᵥ (X⁻¹ *ᵥ a) := by
    intro X hX a b
    have ht : (X⁻¹)ᵀ = X⁻¹ := by rw [← conjTranspose_eq_transpose_of_trivial]; exact hX.inv.isHermitian
    rw [dotProduct_mulVec, ← mulVec_transpose, ht, dotProduct_comm]
  have hI : (x - v) ⬝ᵥ ((w • P⁻¹ + (1 - w) • Q⁻¹) *ᵥ (x - v)) =
      w * ((x - v) ⬝ᵥ (P⁻¹ *ᵥ (x - m₁))) + (1 - w) * ((x - v) ⬝ᵥ (Q⁻¹ *ᵥ (x - m₂))) := by
    rw [mulVec_sub, hv, mulVec_sub, mulVec_sub, add_mulVec, smul_mulVec, smul_mulVec]
    simp only [dotProduct_sub, dotProduct_add, dotProduct_smul, smul_eq_mul]
    ring
  have hI2 := quad_combination P⁻¹ Q⁻¹ w (x - v)
  have e1 : ∀ {X : Matrix (Fin n) (Fin n) ℝ}, X.PosDef → ∀ m : Fin n → ℝ, (v - m) ⬝ᵥ (X⁻¹ *ᵥ (v - m)) =
      (x - m) ⬝ᵥ (X⁻¹ *ᵥ (x - m)) - 2 * ((x - v) ⬝ᵥ (X⁻¹ *ᵥ (x - m))) + (x - v) ⬝ᵥ (X⁻¹ *ᵥ (x - v)) := by
    intro X hX m
    have : v - m = (x - m) - (x - v) := by abel
    have hs := symm hX (x - m) (x - v)
    rw [this]
    generalize x - m = p at hs ⊢
    generalize x - v = q at hs ⊢
    rw [mulVec_sub, dotProduct_sub, sub_dotProduct, sub_dotProduct, hs]
    ring
  rw [e1 hP, e1 hQ]
  linarith

/-- an information matrix that couples the variables `i` and `k` -/
noncomputable def coupled (i k : Fin n) (s c : ℝ) : Matrix (Fin n) (Fin n) ℝ :=
  diagonal (fun j => if j = i then s ^ 2 else 1) +
    vecMulVec (fun j => if j = k then 1 else if j = i then c else 0) (fun j => if j = k then 1 else if j = i then c else 0)

theorem coupled_posDef (i k : Fin n) {s : ℝ} (c : ℝ) (hs : s ≠ 0) : (coupled i k s c).PosDef := by
  refine (PosDef.diagonal fun j => ?_).add_posSemidef ?_
  · split
    · positivity
    · exact one_pos
  · exact posSemidef_vecMulVec_self_star _

theorem coupled_row {i k : Fin n} (hik : i ≠ k) (s c : ℝ) (m : Fin n → ℝ) :
    (coupled i k s c *ᵥ m) i = (s ^ 2 + c ^ 2) * m i + c * m k := by
  unfold coupled
  rw [add_mulVec, Pi.add_apply, mulVec_diagonal, vecMulVec_mulVec]
  have e : (fun j => if j = k then (1 : ℝ) else if j = i then c else 0) = Pi.single k 1 + c • Pi.single i 1 := by
    funext j
    by_cases h1 : j = k
    · subst h1; simp [hik.symm]
    · by_cases h2 : j = i
      · subst h2; simp [hik]
      · simp [h1, h2]
  rw [e, add_dotProduct, smul_dotProduct, single_one_dotProduct, single_one_dotProduct]
  simp [hik]
  ring

theorem coupled_flip {i k : Fin n} (hik : i ≠ k) (s c : ℝ) :
    diagonal (fun j => if j = i then (-1 : ℝ) else 1) * coupled i k s c *
      diagonal (fun j => if j = i then (-1 : ℝ) else 1) = coupled i k s (-c) := by
  ext a b
  rw [mul_diagonal, diagonal_mul]
  unfold coupled
  simp only [Matrix.add_apply, vecMulVec_apply, diagonal_apply]
  by_cases ha : a = i <;> by_cases hb : b = i <;> by_cases ha' : a = k <;> by_cases hb' : b = k <;>
    by_cases hab : a = b <;> simp_all

theorem coupled_det {i k : Fin n} (hik : i ≠ k) (s c : ℝ) : (coupled i k s (-c)).det = (coupled i k s c).det := by
  rw [← coupled_flip hik, det_mul, det_mul, mul_comm, ← mul_assoc, ← det_mul, diagonal_mul_diagonal]
  have : (diagonal fun j => (if j = i then (-1 : ℝ) else 1) * if j = i then (-1 : ℝ) else 1) = (1 : Matrix (Fin n) (Fin n) ℝ) := by
    rw [← diagonal_one]
    congr 1
    funext j
    split <;> norm_num
  rw [this, det_one, one_mul]

/-- variable `i` of the result moves away if the two estimates of variable `k` differ -/
theorem coupled_fused [NeZero n] {i k : Fin n} (hik : i ≠ k) {s : ℝ} (hs : s ≠ 0) (m₁ m₂ : Fin n → ℝ)
    (h : m₁ i = m₂ i) :
    ((fuseInfo (coupled i k s (-s))⁻¹ (coupled i k s s)⁻¹)⁻¹ *ᵥ
      (fuseWeight (coupled i k s (-s))⁻¹ (coupled i k s s)⁻¹ • ((coupled i k s (-s))⁻¹⁻¹ *ᵥ m₁) +
        (1 - fuseWeight (coupled i k s (-s))⁻¹ (coupled i k s s)⁻¹) • ((coupled i k s s)⁻¹⁻¹ *ᵥ m₂))) i =
      m₁ i + (m₂ k - m₁ k) / (4 * s) := by
  have hA := coupled_posDef i k (-s) hs
  have hB := coupled_posDef i k s hs
  have hI := fuseInfo_posDef hA.inv hB.inv
  have hw : fuseWeight (coupled i k s (-s))⁻¹ (coupled i k s s)⁻¹ = 1 / 2 := by
    have h1 := det_lt_det_add hA hB
    have h2 := hA.det_pos
    unfold fuseWeight
    rw [nonsing_inv_nonsing_inv _ (PosDef.isUnit_det hA), nonsing_inv_nonsing_inv _ (PosDef.isUnit_det hB),
      coupled_det hik, sub_add_cancel]
    have : (coupled i k s (-s) + coupled i k s s).det ≠ 0 := by linarith
    field_simp
  set r := fuseWeight (coupled i k s (-s))⁻¹ (coupled i k s s)⁻¹ • ((coupled i k s (-s))⁻¹⁻¹ *ᵥ m₁) +
        (1 - fuseWeight (coupled i k s (-s))⁻¹ (coupled i k s s)⁻¹) • ((coupled i k s s)⁻¹⁻¹ *ᵥ m₂) with hr
  have e1 : ∀ z : Fin n → ℝ, (fuseInfo (coupled i k s (-s))⁻¹ (coupled i k s s)⁻¹ *ᵥ z) i = 2 * s ^ 2 * z i := by
    intro z
    unfold fuseInfo
    rw [hw, nonsing_inv_nonsing_inv _ (PosDef.isUnit_det hA), nonsing_inv_nonsing_inv _ (PosDef.isUnit_det hB),
      add_mulVec, smul_mulVec, smul_mulVec]
    simp only [Pi.add_apply, Pi.smul_apply, smul_eq_mul]
    rw [coupled_row hik, coupled_row hik]
    ring
  have e2 := e1 ((fuseInfo (coupled i k s (-s))⁻¹ (coupled i k s s)⁻¹)⁻¹ *ᵥ r)
  rw [mulVec_mulVec, mul_nonsing_inv _ (PosDef.isUnit_det hI), one_mulVec] at e2
  have e3 : r i = 2 * s ^ 2 * m₁ i + s * (m₂ k - m₁ k) / 2 := by
    rw [hr, hw, nonsing_inv_nonsing_inv _ (PosDef.isUnit_det hA), nonsing_inv_nonsing_inv _ (PosDef.isUnit_det hB)]
    simp only [Pi.add_apply, Pi.smul_apply, smul_eq_mul]
    rw [coupled_row hik, coupled_row hik, ← h]
    ring
  rw [e3] at e2
  have hs2 : (2 * s ^ 2 : ℝ) ≠ 0 := by positivity
  field_simp
  generalize ((fuseInfo (coupled i k s (-s))⁻¹ (coupled i k s s)⁻¹)⁻¹ *ᵥ r) i = y at e2 ⊢
  have : s * (4 * s * y) = s * (m₁ i * (4 * s) + (m₂ k - m₁ k)) := by linarith
  have := mul_left_cancel₀ hs this
  linarith

end Mot
