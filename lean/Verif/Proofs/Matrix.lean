import Mathlib.Analysis.Matrix.Order
import Mathlib.Analysis.InnerProductSpace.PiL2
/-!
# Positive (semi)definite real matrices
-/

namespace Mot

open Matrix

variable {n : Type*} [Fintype n] [DecidableEq n]

open scoped MatrixOrder in
/-- a positive semidefinite matrix has a square root factorisation -/
theorem exists_factor {A : Matrix n n ℝ} (hA : A.PosSemidef) : ∃ B : Matrix n n ℝ, A = Bᵀ * B := by
  obtain ⟨B, rfl⟩ := CStarAlgebra.nonneg_iff_eq_star_mul_self.mp hA.nonneg
  exact ⟨B, by rw [star_eq_conjTranspose, conjTranspose_eq_transpose_of_trivial]⟩

omit [DecidableEq n] in
theorem quad_factor (B : Matrix n n ℝ) (x : n → ℝ) :
    x ⬝ᵥ ((Bᵀ * B) *ᵥ x) = (B *ᵥ x) ⬝ᵥ (B *ᵥ x) := by
  rw [← mulVec_mulVec, dotProduct_mulVec, vecMul_transpose]

omit [DecidableEq n] in
/-- the Euclidean norm, written with `sqrt` and the dot product -/
theorem sqrt_dot_eq_norm (x : n → ℝ) : √(x ⬝ᵥ x) = ‖WithLp.toLp 2 x‖ := by
  rw [EuclideanSpace.norm_eq]
  congr 1
  simp [dotProduct, sq]

omit [DecidableEq n] in
theorem sqrt_dot_add_le (x y : n → ℝ) :
    √((x + y) ⬝ᵥ (x + y)) ≤ √(x ⬝ᵥ x) + √(y ⬝ᵥ y) := by
  rw [sqrt_dot_eq_norm, sqrt_dot_eq_norm, sqrt_dot_eq_norm, WithLp.toLp_add]
  exact norm_add_le _ _

omit [DecidableEq n] in
theorem sqrt_dot_eq_zero {x : n → ℝ} : √(x ⬝ᵥ x) = 0 ↔ x = 0 := by
  rw [sqrt_dot_eq_norm, norm_eq_zero]
  simp

/-- triangle inequality for the norm of a positive semidefinite form -/
theorem sqrt_quad_add_le {A : Matrix n n ℝ} (hA : A.PosSemidef) (x y : n → ℝ) :
    √((x + y) ⬝ᵥ (A *ᵥ (x + y))) ≤ √(x ⬝ᵥ (A *ᵥ x)) + √(y ⬝ᵥ (A *ᵥ y)) := by
  obtain ⟨B, rfl⟩ := exists_factor hA
  rw [quad_factor, quad_factor, quad_factor, mulVec_add]
  exact sqrt_dot_add_le _ _

omit [DecidableEq n] in
theorem quad_nonneg {A : Matrix n n ℝ} (hA : A.PosSemidef) (x : n → ℝ) :
    0 ≤ x ⬝ᵥ (A *ᵥ x) := by
  simpa using hA.dotProduct_mulVec_nonneg x

omit [DecidableEq n] in
theorem quad_pos {A : Matrix n n ℝ} (hA : A.PosDef) {x : n → ℝ} (hx : x ≠ 0) :
    0 < x ⬝ᵥ (A *ᵥ x) := by
  simpa using hA.dotProduct_mulVec_pos hx

end Mot
