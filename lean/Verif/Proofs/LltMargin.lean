import Mathlib.LinearAlgebra.Matrix.PosDef
import Mathlib.LinearAlgebra.FiniteDimensional.Lemmas
import Mathlib.LinearAlgebra.Dimension.Constructions
import Mathlib.Algebra.Order.Chebyshev
import Mathlib.Analysis.SpecialFunctions.Sqrt
/-!
# Positive definite matrices with a margin

If a matrix exceeds `δ` times its diagonal, a matrix of products `G Gᵀ` with one column less than rows cannot approximate
it: the last diagonal entry is too small.
-/

namespace Mot

open Matrix

theorem exists_left_kernel {m : ℕ} (G : Matrix (Fin (m + 1)) (Fin m) ℝ) : ∃ v, v ≠ 0 ∧ Gᵀ *ᵥ v = 0 := by
  have h := LinearMap.ker_ne_bot_of_finrank_lt (f := (Gᵀ).mulVecLin) (by simp)
  obtain ⟨v, hv, hne⟩ := (Submodule.ne_bot_iff _).1 h
  exact ⟨v, hne, hv⟩

theorem sum_form {m : ℕ} (P : Matrix (Fin m) (Fin m) ℝ) (v : Fin m → ℝ) :
    v ⬝ᵥ P *ᵥ v = ∑ a, ∑ b, P a b * (v a * v b) := by
  simp only [dotProduct, mulVec, Finset.mul_sum]
  refine Finset.sum_congr rfl fun a _ => Finset.sum_congr rfl fun b _ => ?_
  ring

theorem gram_form {m l : ℕ} (G : Matrix (Fin m) (Fin l) ℝ) {v : Fin m → ℝ} (h : Gᵀ *ᵥ v = 0) :
    ∑ a, ∑ b, (G * Gᵀ) a b * (v a * v b) = 0 := by
  rw [← sum_form, ← mulVec_mulVec, h, mulVec_zero, dotProduct_zero]

theorem last_small {m : ℕ} {P : Matrix (Fin (m + 1)) (Fin (m + 1)) ℝ} {G : Matrix (Fin (m + 1)) (Fin m) ℝ} {ε c δ : ℝ}
    (hε : 0 ≤ ε) (hc : 0 ≤ c) (hd : ∀ a, 0 ≤ P a a) (hP : (P - δ • diagonal fun a => P a a).PosDef)
    (hG : ∀ a b, (a ≠ Fin.last m ∨ b ≠ Fin.last m) → |(G * Gᵀ) a b - P a b| ≤ ε * (√(P a a) * √(P b b)))
    (hδ : (m + 1) * ε + c ≤ δ) :
    (G * Gᵀ) (Fin.last m) (Fin.last m) < (1 - c) * P (Fin.last m) (Fin.last m) := by
  by_contra hcon
  have hcon := not_lt.1 hcon
  obtain ⟨v, hv, hk⟩ := exists_left_kernel G
  have h0 := gram_form G hk
  have hpos := hP.dotProduct_mulVec_pos hv
  rw [star_trivial, sub_mulVec, dotProduct_sub, smul_mulVec, dotProduct_smul, sum_form, smul_eq_mul] at hpos
  have hdiag : v ⬝ᵥ (diagonal fun a => P a a) *ᵥ v = ∑ a, P a a * v a ^ 2 := by
    simp only [dotProduct, mulVec_diagonal]
    exact Finset.sum_congr rfl fun a _ => by ring
  rw [hdiag] at hpos
  -- the errors
  have hterm : ∀ a b, P a b * (v a * v b) ≤ (G * Gᵀ) a b * (v a * v b) + ε * ((√(P a a) * |v a|) * (√(P b b) * |v b|)) +
      if a = Fin.last m ∧ b = Fin.last m then c * (P a a * v a ^ 2) else 0 := by
    intro a b
    by_cases h : a = Fin.last m ∧ b = Fin.last m
    · rw [if_pos h]
      obtain ⟨rfl, rfl⟩ := h
      have h1 := mul_le_mul_of_nonneg_right hcon (mul_self_nonneg (v (Fin.last m)))
      have h2 : 0 ≤ ε * ((√(P (Fin.last m) (Fin.last m)) * |v (Fin.last m)|) *
          (√(P (Fin.last m) (Fin.last m)) * |v (Fin.last m)|)) := by positivity
      nlinarith
    · rw [if_neg h, add_zero]
      have h1 := hG a b (by tauto)
      have h2 : (P a b - (G * Gᵀ) a b) * (v a * v b) ≤ |(G * Gᵀ) a b - P a b| * (|v a| * |v b|) := by
        refine (le_abs_self _).trans (le_of_eq ?_)
        rw [abs_mul, abs_mul, abs_sub_comm]
      have h3 := mul_le_mul_of_nonneg_right h1 (show 0 ≤ |v a| * |v b| by positivity)
      linarith
  have hsum : ∑ a, ∑ b, P a b * (v a * v b) ≤ ε * (∑ a, √(P a a) * |v a|) ^ 2 + c * ∑ a, P a a * v a ^ 2 := by
    refine (Finset.sum_le_sum fun a _ => Finset.sum_le_sum fun b _ => hterm a b).trans ?_
    simp only [Finset.sum_add_distrib, h0, zero_add]
    refine add_le_add (le_of_eq ?_) ?_
    · rw [sq, Finset.sum_mul_sum, Finset.mul_sum]
      exact Finset.sum_congr rfl fun a _ => by rw [Finset.mul_sum]
    · have e : ∑ a, ∑ b, (if a = Fin.last m ∧ b = Fin.last m then c * (P a a * v a ^ 2) else 0) =
          c * (P (Fin.last m) (Fin.last m) * v (Fin.last m) ^ 2) := by
        rw [Finset.sum_eq_single (Fin.last m), Finset.sum_eq_single (Fin.last m)]
        · simp
        · intro b _ hb; rw [if_neg fun h => hb h.2]
        · intro h; exact absurd (Finset.mem_univ _) h
        · intro a _ ha
          exact Finset.sum_eq_zero fun b _ => if_neg fun h => ha h.1
        · intro h; exact absurd (Finset.mem_univ _) h
      rw [e]
      refine mul_le_mul_of_nonneg_left ?_ hc
      exact Finset.single_le_sum (f := fun a => P a a * v a ^ 2) (fun a _ => mul_nonneg (hd a) (sq_nonneg _))
        (Finset.mem_univ _)
  have hcs : (∑ a, √(P a a) * |v a|) ^ 2 ≤ (m + 1) * ∑ a, P a a * v a ^ 2 := by
    have := sq_sum_le_card_mul_sum_sq (s := Finset.univ) (f := fun a : Fin (m + 1) => √(P a a) * |v a|)
    simp only [Finset.card_univ, Fintype.card_fin, Nat.cast_add, Nat.cast_one] at this
    refine this.trans (le_of_eq ?_)
    congr 1
    refine Finset.sum_congr rfl fun a _ => ?_
    rw [mul_pow, Real.sq_sqrt (hd a), sq_abs]
  have hD : 0 ≤ ∑ a, P a a * v a ^ 2 := Finset.sum_nonneg fun a _ => mul_nonneg (hd a) (sq_nonneg _)
  have h1 := mul_le_mul_of_nonneg_left hcs hε
  have h2 := mul_le_mul_of_nonneg_right hδ hD
  linarith

end Mot
