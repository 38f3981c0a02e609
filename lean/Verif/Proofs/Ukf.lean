import Verif.Proofs.Cholesky
import Verif.Proofs.Fusing
import Mathlib.Algebra.BigOperators.Fin
/-!
# Lemmas about the unscented transform
-/

namespace Mot

open Matrix Spec

variable {n m : ℕ}

/-! ## Sums of lists -/

theorem zipWith_replicate {α β γ : Type} (f : α → β → γ) (w : α) (l : List β) :
    List.zipWith f (List.replicate l.length w) l = l.map (f w) := by
  induction l with
  | nil => rfl
  | cons x l ih => rw [List.length_cons, List.replicate_succ, List.zipWith_cons_cons, ih, List.map_cons]

theorem zipWith_replicate_right {α β γ : Type} (f : α → β → γ) (w : β) (l : List α) :
    List.zipWith f l (List.replicate l.length w) = l.map (f · w) := by
  induction l with
  | nil => rfl
  | cons x l ih => rw [List.length_cons, List.replicate_succ, List.zipWith_cons_cons, ih, List.map_cons]

theorem sum_map_smul {V : Type} [AddCommGroup V] [Module ℝ V] (w : ℝ) (l : List V) :
    (l.map fun v => w • v).sum = w • l.sum := by
  induction l with
  | nil => simp
  | cons x l ih => rw [List.map_cons, List.sum_cons, ih, List.sum_cons, smul_add]

/-- the transform of a centre `r₀` and points `l` with equal weights -/
theorem computeUt_cons (r₀ : Fin n → ℝ) (l : List (Fin n → ℝ)) (w₀ c₀ w : ℝ) {k : ℕ}
    (hk : l.length = k) :
    computeUt (r₀ :: l) (w₀ :: List.replicate k w) (c₀ :: List.replicate k w) =
      .ok (w₀ • r₀ + w • l.sum,
        c₀ • vecMulVec (r₀ - (w₀ • r₀ + w • l.sum)) (r₀ - (w₀ • r₀ + w • l.sum)) +
        w • (l.map fun p =>
          vecMulVec (p - (w₀ • r₀ + w • l.sum)) (p - (w₀ • r₀ + w • l.sum))).sum) := by
  subst hk
  unfold computeUt
  rw [if_pos (by simp)]
  have hx : (List.zipWith (fun (w : ℝ) (p : Fin n → ℝ) => w • p) (w₀ :: List.replicate l.length w)
      (r₀ :: l)).sum = w₀ • r₀ + w • l.sum := by
    rw [List.zipWith_cons_cons, List.sum_cons, zipWith_replicate, sum_map_smul]
  simp only [hx]
  set x := w₀ • r₀ + w • l.sum with hxd
  congr 1
  congr 1
  have hy : List.zipWith (fun p q : Fin n → ℝ => p - q) (r₀ :: l) (stackVector x (r₀ :: l).length) =
      (r₀ - x) :: l.map (· - x) := by
    unfold stackVector
    rw [zipWith_replicate_right, List.map_cons]
  rw [hy, List.zipWith_cons_cons, List.sum_cons]
  congr 1
  · rw [vecMulVec_smul]
  · have : l.length = (l.map (· - x)).length := by simp
    rw [this, zipWith_replicate, List.map_map, ← sum_map_smul, List.map_map]
    congr 1
    apply List.map_congr_left
    intro p _
    simp [vecMulVec_smul]

/-! ## Symmetric points -/

/-- the points `z ± e j` -/
def symPoints (z : Fin n → ℝ) (e : Fin m → Fin n → ℝ) : List (Fin n → ℝ) :=
  (List.finRange m).flatMap fun j => [z + e j, z - e j]

theorem symPoints_length (z : Fin n → ℝ) (e : Fin m → Fin n → ℝ) :
    (symPoints z e).length = 2 * m := by
  unfold symPoints
  rw [List.length_flatMap]
  simp
  ring

theorem sum_flatMap_pair {V ι : Type} [AddCommGroup V] (l : List ι) (f g : ι → V) :
    (l.flatMap fun j => [f j, g j]).sum = (l.map fun j => f j + g j).sum := by
  induction l with
  | nil => rfl
  | cons x l ih =>
    rw [List.flatMap_cons, List.sum_append, ih, List.map_cons, List.sum_cons]
    simp

theorem symPoints_sum (z : Fin n → ℝ) (e : Fin m → Fin n → ℝ) :
    (symPoints z e).sum = (2 * m : ℝ) • z := by
  unfold symPoints
  rw [sum_flatMap_pair, ← Fin.sum_univ_def]
  have : ∀ j : Fin m, z + e j + (z - e j) = (2 : ℝ) • z := by
    intro j; rw [two_smul]; abel
  simp only [this, Finset.sum_const, Finset.card_univ, Fintype.card_fin]
  rw [← Nat.cast_smul_eq_nsmul ℝ, smul_smul, mul_comm]

theorem symPoints_cov (z : Fin n → ℝ) (e : Fin m → Fin n → ℝ) :
    ((symPoints z e).map fun p => vecMulVec (p - z) (p - z)).sum =
      (2 : ℝ) • ∑ j, vecMulVec (e j) (e j) := by
  unfold symPoints
  rw [List.map_flatMap]
  simp only [List.map_cons, List.map_nil]
  rw [sum_flatMap_pair, ← Fin.sum_univ_def, Finset.smul_sum]
  apply Finset.sum_congr rfl
  intro j _
  rw [add_sub_cancel_left, sub_sub_cancel_left, neg_vecMulVec, vecMulVec_neg, neg_neg, two_smul]

/-- the transform of a symmetric set of points -/
theorem computeUt_sym (z : Fin n → ℝ) (e : Fin m → Fin n → ℝ) (w₀ c₀ w : ℝ)
    (h : w₀ + 2 * m * w = 1) :
    computeUt (z :: symPoints z e) (w₀ :: List.replicate (2 * m) w) (c₀ :: List.replicate (2 * m) w) =
      .ok (z, (2 * w) • ∑ j, vecMulVec (e j) (e j)) := by
  rw [computeUt_cons _ _ _ _ _ (symPoints_length z e)]
  have hz : w₀ • z + w • (symPoints z e).sum = z := by
    rw [symPoints_sum, smul_smul, ← add_smul, show w₀ + w * (2 * m) = 1 by linarith, one_smul]
  rw [hz, symPoints_cov, sub_self, vecMulVec_zero, smul_zero, zero_add, smul_smul, mul_comm w 2]

/-- sum of the outer products of the columns -/
theorem sum_outer (A : Matrix (Fin n) (Fin m) ℝ) :
    ∑ j, vecMulVec (A.col j) (A.col j) = A * Aᵀ := by
  ext i k
  rw [Matrix.sum_apply, mul_apply]
  rfl

theorem sum_outer_smul (r : ℝ) (A : Matrix (Fin n) (Fin m) ℝ) :
    ∑ j, vecMulVec (r • A.col j) (r • A.col j) = (r * r) • (A * Aᵀ) := by
  rw [← sum_outer, Finset.smul_sum]
  apply Finset.sum_congr rfl
  intro j _
  rw [smul_vecMulVec, vecMulVec_smul, smul_smul]

/-! ## Weights -/

theorem lambda_sum (n : ℕ) (α κ : ℝ) : n + generateLambda n α κ = α ^ 2 * (n + κ) := by
  unfold generateLambda; ring

theorem generateWeights_some {n : ℕ} {α β lam : ℝ} (h : n + lam ≠ 0) :
    generateWeights n α β lam = some
      (lam / (n + lam) :: List.replicate (2 * n) (1 / (2 * (n + lam))),
       (lam / (n + lam) + (1 - α ^ 2 + β)) :: List.replicate (2 * n) (1 / (2 * (n + lam)))) := by
  unfold generateWeights
  rw [if_neg h]
  simp only
  rw [show (1 : ℝ) / 2 * (1 / (n + lam)) = 1 / (2 * (n + lam)) by rw [div_mul_div_comm, one_mul],
    sq α]

theorem weight_total {n : ℕ} {lam : ℝ} (h : n + lam ≠ 0) :
    lam / (n + lam) + 2 * n * (1 / (2 * (n + lam))) = 1 := by
  field_simp
  ring

/-! ## Affine images of the sigma points -/

/-- the unscented transform of an affine image of the (unwrapped) sigma points -/
theorem computeUt_affine {N : ℝ} (hN : 0 < N) {w₀ c₀ : ℝ} (hw : w₀ + 2 * n * (1 / (2 * N)) = 1)
    (x : Fin n → ℝ) (L : Matrix (Fin n) (Fin n) ℝ) (M : Matrix (Fin m) (Fin n) ℝ) (b : Fin m → ℝ) :
    computeUt ((x :: symPoints x fun j => √N • L.col j).map fun p => M *ᵥ p + b)
        (w₀ :: List.replicate (2 * n) (1 / (2 * N))) (c₀ :: List.replicate (2 * n) (1 / (2 * N))) =
      .ok (M *ᵥ x + b, M * (L * Lᵀ) * Mᵀ) := by
  have hrows : (x :: symPoints x fun j => √N • L.col j).map (fun p => M *ᵥ p + b) =
      (M *ᵥ x + b) :: symPoints (M *ᵥ x + b) fun j => √N • (M * L).col j := by
    rw [List.map_cons]
    congr 1
    unfold symPoints
    rw [List.map_flatMap]
    congr 1
    funext j
    have hc : M *ᵥ (√N • L.col j) = √N • (M * L).col j := by
      rw [mulVec_smul]
      congr 1
    simp only [List.map_cons, List.map_nil, mulVec_add, mulVec_sub, hc]
    congr 1
    · abel
    · congr 1; abel
  rw [hrows, computeUt_sym _ _ _ _ _ hw, sum_outer_smul, smul_smul, Real.mul_self_sqrt hN.le,
    transpose_mul]
  rw [show 2 * (1 / (2 * N)) * N = 1 by field_simp, one_smul]
  simp only [Matrix.mul_assoc]

/-! ## Positive semidefiniteness -/

theorem vecMulVec_posSemidef (v : Fin n → ℝ) : (vecMulVec v v).PosSemidef := by
  have := posSemidef_vecMulVec_self_star v
  rwa [star_trivial] at this

theorem zip_cov_symm (wc : List ℝ) (ys : List (Fin n → ℝ)) :
    ((List.zipWith (fun (w : ℝ) (p : Fin n → ℝ) => vecMulVec p (w • p)) wc ys).sum)ᵀ =
      (List.zipWith (fun (w : ℝ) (p : Fin n → ℝ) => vecMulVec p (w • p)) wc ys).sum := by
  induction wc generalizing ys with
  | nil => simp
  | cons w wc ih =>
    cases ys with
    | nil => simp
    | cons y ys =>
      rw [List.zipWith_cons_cons, List.sum_cons, transpose_add, ih, vecMulVec_smul, transpose_smul,
        transpose_vecMulVec]

theorem zip_cov_posSemidef (wc : List ℝ) (hw : ∀ w ∈ wc, 0 ≤ w) (ys : List (Fin n → ℝ)) :
    (List.zipWith (fun (w : ℝ) (p : Fin n → ℝ) => vecMulVec p (w • p)) wc ys).sum.PosSemidef := by
  induction wc generalizing ys with
  | nil => simpa using PosSemidef.zero
  | cons w wc ih =>
    cases ys with
    | nil => simpa using PosSemidef.zero
    | cons y ys =>
      rw [List.zipWith_cons_cons, List.sum_cons, vecMulVec_smul]
      exact ((vecMulVec_posSemidef y).smul (hw w (by simp))).add
        (ih (fun v hv => hw v (List.mem_cons_of_mem _ hv)) ys)

end Mot

namespace Mot

open Matrix Spec

/-- What the generic proofs about prediction use of a motion model. -/
class MotionLaws (S : Type) (n : outParam ℕ) [MotionModel S n] where
  Valid : S → Prop
  four : 4 ≤ n
  valid_add : ∀ s d : S, Valid (MotionModel.add s d)
  valid_sub : ∀ s d : S, Valid (MotionModel.sub s d)
  valid_ofVec : ∀ v : Fin n → ℝ, Valid (MotionModel.ofVec v : S)
  valid_next : ∀ (s : S) dt, Valid (MotionModel.next s dt)
  toVec_add : ∀ (s : S) (v : Fin n → ℝ), SameUpToTurns
    (MotionModel.toVec (MotionModel.add s (MotionModel.ofVec v))) (MotionModel.toVec s + v)
  toVec_sub : ∀ (s : S) (v : Fin n → ℝ), SameUpToTurns
    (MotionModel.toVec (MotionModel.sub s (MotionModel.ofVec v))) (MotionModel.toVec s - v)
  toVec_ofVec : ∀ v : Fin n → ℝ, SameUpToTurns (MotionModel.toVec (MotionModel.ofVec v : S)) v
  range : ∀ (s : S) (k : Fin n), k.1 = 3 →
    0 ≤ MotionModel.toVec s k ∧ MotionModel.toVec s k < 2 * Real.pi
  ofVec_toVec : ∀ s : S, Valid s → MotionModel.ofVec (MotionModel.toVec s) = s
  ofVec_congr : ∀ v w : Fin n → ℝ, SameUpToTurns v w → (MotionModel.ofVec v : S) = MotionModel.ofVec w
  next_zero : ∀ s : S, Valid s → MotionModel.next s 0 = s

theorem sameUpToTurns_refl {n : ℕ} (v : Fin n → ℝ) : SameUpToTurns v v := by
  intro i
  split
  · exact SameDir.refl _
  · rfl

noncomputable instance motionLawsCtrv : MotionLaws CtrvState 5 where
  Valid s := s.yaw.Valid
  four := by norm_num
  valid_add _ _ := Angle.valid_add _ _
  valid_sub _ _ := Angle.valid_sub _ _
  valid_ofVec _ := Angle.valid_ofRad _
  valid_next _ _ := Angle.valid_add _ _
  toVec_add s v := by
    intro i
    fin_cases i
    · rfl
    · rfl
    · rfl
    · exact Angle.sameDir_getAngle_add_ofRad _ _
    · rfl
  toVec_sub s v := by
    intro i
    fin_cases i
    · rfl
    · rfl
    · rfl
    · exact (Angle.sameDir_getAngle _).trans ((SameDir.refl _).sub (Angle.sameDir_getAngle _))
    · rfl
  toVec_ofVec v := by
    intro i
    fin_cases i
    · rfl
    · rfl
    · rfl
    · exact Angle.sameDir_getAngle _
    · rfl
  range s k hk := by
    have : k = 3 := Fin.ext hk
    subst this
    exact Angle.getAngle_range _
  ofVec_toVec s h := by
    show CtrvState.mk s.x s.y s.v (Angle.ofRad s.yaw.getAngle) s.yawRate = s
    rw [Angle.ofRad_getAngle h]
  ofVec_congr v w h := by
    have h0 : v 0 = w 0 := h 0
    have h1 : v 1 = w 1 := h 1
    have h2 : v 2 = w 2 := h 2
    have h3 : SameDir (v 3) (w 3) := h 3
    have h4 : v 4 = w 4 := h 4
    show CtrvState.mk (v 0) (v 1) (v 2) (Angle.ofRad (v 3)) (v 4) = _
    rw [h0, h1, h2, Angle.ofRad_eq_iff.2 h3, h4]
    rfl
  next_zero s h := CtrvState.next_zero s h

noncomputable instance motionLawsCtra : MotionLaws CtraState 6 where
  Valid s := s.yaw.Valid
  four := by norm_num
  valid_add _ _ := Angle.valid_add _ _
  valid_sub _ _ := Angle.valid_sub _ _
  valid_ofVec _ := Angle.valid_ofRad _
  valid_next _ _ := Angle.valid_add _ _
  toVec_add s v := by
    intro i
    fin_cases i
    · rfl
    · rfl
    · rfl
    · exact Angle.sameDir_getAngle_add_ofRad _ _
    · rfl
    · rfl
  toVec_sub s v := by
    intro i
    fin_cases i
    · rfl
    · rfl
    · rfl
    · exact (Angle.sameDir_getAngle _).trans ((SameDir.refl _).sub (Angle.sameDir_getAngle _))
    · rfl
    · rfl
  toVec_ofVec v := by
    intro i
    fin_cases i
    · rfl
    · rfl
    · rfl
    · exact Angle.sameDir_getAngle _
    · rfl
    · rfl
  range s k hk := by
    have : k = 3 := Fin.ext hk
    subst this
    exact Angle.getAngle_range _
  ofVec_toVec s h := by
    show CtraState.mk s.x s.y s.v (Angle.ofRad s.yaw.getAngle) s.yawRate s.a = s
    rw [Angle.ofRad_getAngle h]
  ofVec_congr v w h := by
    have h0 : v 0 = w 0 := h 0
    have h1 : v 1 = w 1 := h 1
    have h2 : v 2 = w 2 := h 2
    have h3 : SameDir (v 3) (w 3) := h 3
    have h4 : v 4 = w 4 := h 4
    have h5 : v 5 = w 5 := h 5
    show CtraState.mk (v 0) (v 1) (v 2) (Angle.ofRad (v 3)) (v 4) (v 5) = _
    rw [h0, h1, h2, Angle.ofRad_eq_iff.2 h3, h4, h5]
    rfl
  next_zero s h := CtraState.next_zero s h

end Mot

namespace Mot

open Matrix Spec

section
variable {S : Type} {n : ℕ} [MotionModel S n]

theorem sigmaLoop_length (s : S) (L : Matrix (Fin n) (Fin n) ℝ) (r : ℝ) :
    (sigmaLoop s L r).length = 2 * n := by
  unfold sigmaLoop
  rw [List.length_flatMap]
  simp
  ring

/-- rows of the matrix of predicted points -/
noncomputable def predictedRows (s : S) (L : Matrix (Fin n) (Fin n) ℝ) (r dt : ℝ) :
    List (Fin n → ℝ) :=
  (s :: sigmaLoop s L r).map fun p => rotateYaw (MotionModel.toVec (MotionModel.next p dt))

theorem ukfPredict_eq (chol : Chol) (s : S) (P : Matrix (Fin n) (Fin n) ℝ) (dt α β κ : ℝ)
    (hN : 0 < α ^ 2 * (n + κ)) :
    ukfPredict chol s P dt α β κ =
      match computeUt (predictedRows s (chol n P) √(α ^ 2 * (n + κ)) dt)
        (generateLambda n α κ / (α ^ 2 * (n + κ)) ::
          List.replicate (2 * n) (1 / (2 * (α ^ 2 * (n + κ)))))
        ((generateLambda n α κ / (α ^ 2 * (n + κ)) + (1 - α ^ 2 + β)) ::
          List.replicate (2 * n) (1 / (2 * (α ^ 2 * (n + κ))))) with
      | .ok (x, C) => .ok (MotionModel.ofVec x, C)
      | .throw e => .throw e
      | .ub w => .ub w := by
  have hl := lambda_sum n α κ
  unfold ukfPredict sigmaPointsAndWeights sigmaPoints
  simp only
  rw [generateWeights_some (by rw [hl]; exact hN.ne'), hl, if_neg (not_lt.2 hN.le)]
  simp only [pointsToRows, predictedRows, List.map_cons, List.map_map]
  rfl

theorem ukfPredict_notReal (chol : Chol) (s : S) (P : Matrix (Fin n) (Fin n) ℝ) (dt α β κ : ℝ)
    (hN : α ^ 2 * (n + κ) ≤ 0) : ukfPredict chol s P dt α β κ = .ub .notReal := by
  have hl := lambda_sum n α κ
  unfold ukfPredict sigmaPointsAndWeights sigmaPoints
  simp only
  rcases lt_or_eq_of_le hN with h | h
  · rw [← hl] at h
    rw [if_pos h]
  · rw [← hl] at h
    rw [if_neg (by rw [h]; exact lt_irrefl _)]
    have : generateWeights n α β (generateLambda n α κ) = none := by
      unfold generateWeights; rw [if_pos h]
    rw [this]

variable [MotionLaws S n]

/-- the vector that has `a` in the place of the heading and 0 elsewhere -/
def headingVec (n : ℕ) (a : ℝ) : Fin n → ℝ := fun i => if i.1 = 3 then a else 0

theorem row_low {v z : Fin n → ℝ} (h : SameUpToTurns v z)
    (hv : ∀ k : Fin n, k.1 = 3 → 0 ≤ v k ∧ v k < 2 * Real.pi)
    (hz : ∀ k : Fin n, k.1 = 3 → 0 ≤ z k ∧ z k ≤ yawCut) : rotateYaw v = z := by
  have hc := yawCut_bounds
  have hpi := Real.pi_gt_three
  funext i
  have hi := h i
  by_cases h3 : i.1 = 3
  · rw [if_pos h3] at hi
    obtain ⟨z0, z1⟩ := hz i h3
    have e : v i = z i := hi.eq_of_range (hv i h3) ⟨z0, by norm_num at hc; linarith [hc.2]⟩
    rw [rotateYaw_heading _ _ h3, e]
    exact if_neg (not_lt.2 z1)
  · rw [if_neg h3] at hi
    rw [rotateYaw_of_ne h3, hi]

theorem row_high {v z : Fin n → ℝ} (h : SameUpToTurns v z)
    (hv : ∀ k : Fin n, k.1 = 3 → 0 ≤ v k ∧ v k < 2 * Real.pi)
    (hz : ∀ k : Fin n, k.1 = 3 → yawCut < z k ∧ z k < 2 * Real.pi) :
    rotateYaw v = z + headingVec n (-(2 * yawCut)) := by
  have hc := yawCut_bounds
  have hpi := Real.pi_gt_three
  funext i
  have hi := h i
  by_cases h3 : i.1 = 3
  · rw [if_pos h3] at hi
    obtain ⟨z0, z1⟩ := hz i h3
    have e : v i = z i := hi.eq_of_range (hv i h3) ⟨by linarith, z1⟩
    rw [rotateYaw_heading _ _ h3, e, Pi.add_apply, headingVec, if_pos h3]
    unfold rotateHeading
    rw [if_pos z0]; ring
  · rw [if_neg h3] at hi
    rw [rotateYaw_of_ne h3, hi, Pi.add_apply, headingVec, if_neg h3, add_zero]

/-- an entry of the Cholesky factor is at most the standard deviation -/
theorem cholesky_entry_le {L P : Matrix (Fin n) (Fin n) ℝ} (h : L * Lᵀ = P) (k j : Fin n) :
    |L k j| ≤ √(P k k) := by
  apply Real.abs_le_sqrt
  rw [← h, mul_apply]
  have : L k j ^ 2 = L k j * Lᵀ j k := by rw [transpose_apply, sq]
  rw [this]
  exact Finset.single_le_sum (f := fun x => L k x * Lᵀ x k)
    (fun i _ => by rw [transpose_apply]; exact mul_self_nonneg _) (Finset.mem_univ j)

theorem rows_of_forall {L : Matrix (Fin n) (Fin n) ℝ} {s : S} (hs : MotionLaws.Valid s) {r : ℝ}
    {b : Fin n → ℝ}
    (h : ∀ v z : Fin n → ℝ, SameUpToTurns v z →
      (∀ k : Fin n, k.1 = 3 → 0 ≤ v k ∧ v k < 2 * Real.pi) →
      (z = MotionModel.toVec s ∨ ∃ j, z = MotionModel.toVec s + r • L.col j ∨
        z = MotionModel.toVec s - r • L.col j) → rotateYaw v = z + b) :
    predictedRows s L r 0 = (MotionModel.toVec s :: symPoints (MotionModel.toVec s)
      fun j => r • L.col j).map fun p => (1 : Matrix (Fin n) (Fin n) ℝ) *ᵥ p + b := by
  unfold predictedRows sigmaLoop symPoints
  rw [List.map_cons, List.map_cons, List.map_flatMap, List.map_flatMap]
  congr 1
  · rw [MotionLaws.next_zero s hs, one_mulVec]
    exact h _ _ (sameUpToTurns_refl _) (MotionLaws.range s) (.inl rfl)
  · congr 1
    funext j
    simp only [List.map_cons, List.map_nil, one_mulVec]
    rw [MotionLaws.next_zero _ (MotionLaws.valid_add _ _), MotionLaws.next_zero _ (MotionLaws.valid_sub _ _),
      h _ _ (MotionLaws.toVec_add s _) (MotionLaws.range _) (.inr ⟨j, .inl rfl⟩),
      h _ _ (MotionLaws.toVec_sub s _) (MotionLaws.range _) (.inr ⟨j, .inr rfl⟩)]

/-- prediction by zero time when all rows are the unwrapped points plus a constant, with a factor of `Q` -/
theorem ukfPredict_zero_of_factor {chol : Chol} {s : S} (hs : MotionLaws.Valid s)
    {P Q : Matrix (Fin n) (Fin n) ℝ} (hQ : chol n P * (chol n P)ᵀ = Q) {α β κ : ℝ} (hN : 0 < α ^ 2 * (n + κ))
    {b : Fin n → ℝ}
    (h : ∀ v z : Fin n → ℝ, SameUpToTurns v z →
      (∀ k : Fin n, k.1 = 3 → 0 ≤ v k ∧ v k < 2 * Real.pi) →
      (∀ k : Fin n, k.1 = 3 → |z k - MotionModel.toVec s k| ≤ √(α ^ 2 * (n + κ) * Q k k)) →
      rotateYaw v = z + b) :
    ukfPredict chol s P 0 α β κ = .ok (MotionModel.ofVec (MotionModel.toVec s + b), Q) := by
  rw [ukfPredict_eq chol s P 0 α β κ hN, rows_of_forall hs (b := b), computeUt_affine hN]
  · simp only [one_mulVec, hQ, one_mul, transpose_one, mul_one]
  · have := weight_total (n := n) (lam := generateLambda n α κ) (by rw [lambda_sum]; exact hN.ne')
    rw [lambda_sum] at this
    exact this
  · intro v z h1 h2 h3
    refine h v z h1 h2 ?_
    intro k _
    have hentry : ∀ j, |√(α ^ 2 * (n + κ)) * chol n P k j| ≤ √(α ^ 2 * (n + κ) * Q k k) := by
      intro j
      rw [Real.sqrt_mul hN.le, abs_mul, abs_of_nonneg (Real.sqrt_nonneg _)]
      exact mul_le_mul_of_nonneg_left (cholesky_entry_le hQ k j) (Real.sqrt_nonneg _)
    rcases h3 with rfl | ⟨j, rfl | rfl⟩
    · rw [sub_self, abs_zero]; exact Real.sqrt_nonneg _
    · rw [Pi.add_apply, add_sub_cancel_left]
      exact hentry j
    · rw [Pi.sub_apply, sub_sub_cancel_left, abs_neg]
      exact hentry j

/-- prediction by zero time when all rows are the unwrapped points plus a constant -/
theorem ukfPredict_zero {chol : Chol} (hchol : IsLlt chol) {s : S} (hs : MotionLaws.Valid s)
    {P : Matrix (Fin n) (Fin n) ℝ} (hP : P.PosDef) {α β κ : ℝ} (hN : 0 < α ^ 2 * (n + κ))
    {b : Fin n → ℝ}
    (h : ∀ v z : Fin n → ℝ, SameUpToTurns v z →
      (∀ k : Fin n, k.1 = 3 → 0 ≤ v k ∧ v k < 2 * Real.pi) →
      (∀ k : Fin n, k.1 = 3 → |z k - MotionModel.toVec s k| ≤ √(α ^ 2 * (n + κ) * P k k)) →
      rotateYaw v = z + b) :
    ukfPredict chol s P 0 α β κ = .ok (MotionModel.ofVec (MotionModel.toVec s + b), P) :=
  ukfPredict_zero_of_factor hs (hchol n P hP).factor hN h

end

end Mot

namespace Mot

open Matrix Spec

theorem getElem?_flatMap_pair {α ι : Type} (f g : ι → α) (l : List ι) (i : ℕ) :
    (l.flatMap fun j => [f j, g j])[2 * i]? = l[i]?.map f ∧
    (l.flatMap fun j => [f j, g j])[2 * i + 1]? = l[i]?.map g := by
  induction l generalizing i with
  | nil => simp
  | cons x l ih =>
    rw [List.flatMap_cons]
    cases i with
    | zero => simp
    | succ i =>
      obtain ⟨h1, h2⟩ := ih i
      constructor
      · rw [show 2 * (i + 1) = 2 * i + 1 + 1 by ring]
        simpa using h1
      · rw [show 2 * (i + 1) + 1 = (2 * i + 1) + 1 + 1 by ring]
        simpa using h2

section
variable {n : ℕ}

theorem zip_mean_apply (wm : List ℝ) (rows : List (Fin n → ℝ)) (h : wm.length = rows.length)
    (i : Fin n) : (List.zipWith (fun (w : ℝ) (p : Fin n → ℝ) => w • p) wm rows).sum i =
      ∑ k : Fin rows.length, wm.getD k 0 * rows.get k i := by
  induction rows generalizing wm with
  | nil => simp
  | cons r rows ih =>
    cases wm with
    | nil => simp at h
    | cons w wm =>
      rw [List.zipWith_cons_cons, List.sum_cons, Pi.add_apply, ih wm (by simpa using h)]
      simp only [List.length_cons, Fin.sum_univ_succ]
      rfl

theorem zip_cov_apply (wc : List ℝ) (rows : List (Fin n → ℝ)) (h : wc.length = rows.length)
    (x : Fin n → ℝ) (i j : Fin n) :
    (List.zipWith (fun (w : ℝ) (p : Fin n → ℝ) => vecMulVec p (w • p)) wc
      (List.zipWith (fun p q => p - q) rows (stackVector x rows.length))).sum i j =
      ∑ k : Fin rows.length, wc.getD k 0 * (rows.get k i - x i) * (rows.get k j - x j) := by
  induction rows generalizing wc with
  | nil => simp
  | cons r rows ih =>
    cases wc with
    | nil => simp at h
    | cons w wc =>
      have hst : stackVector x (r :: rows).length = x :: stackVector x rows.length := rfl
      rw [hst, List.zipWith_cons_cons, List.zipWith_cons_cons, List.sum_cons, Matrix.add_apply,
        ih wc (by simpa using h)]
      refine Eq.trans ?_ (Fin.sum_univ_succ _).symm
      congr 1
      show (r i - x i) * (w * (r j - x j)) = w * (r i - x i) * (r j - x j)
      ring

theorem computeUt_isWeighted (rows : List (Fin n → ℝ)) (wm wc : List ℝ)
    {x : Fin n → ℝ} {P : Matrix (Fin n) (Fin n) ℝ} (h : computeUt rows wm wc = .ok (x, P)) :
    IsWeightedMeanCov rows wm wc x P := by
  unfold computeUt at h
  split at h
  · rename_i hl
    simp only [Outcome.ok.injEq, Prod.mk.injEq] at h
    obtain ⟨rfl, rfl⟩ := h
    exact ⟨hl, fun i => zip_mean_apply wm rows hl.1 i, fun i j => zip_cov_apply wc rows hl.2 _ i j⟩
  · cases h

end

section
variable {S : Type} {n : ℕ} [MotionModel S n]

/-- mean of the predicted points -/
theorem ukfPredict_mean (chol : Chol) (s : S) (P : Matrix (Fin n) (Fin n) ℝ) (dt α β κ : ℝ)
    (hN : 0 < α ^ 2 * (n + κ)) : ∃ x C, ukfPredict chol s P dt α β κ = .ok (MotionModel.ofVec x, C) ∧
      ∀ k, x k = generateLambda n α κ / (α ^ 2 * (n + κ)) *
          rotateYaw (MotionModel.toVec (MotionModel.next s dt)) k +
        1 / (2 * (α ^ 2 * (n + κ))) * ∑ j,
          (rotateYaw (MotionModel.toVec (MotionModel.next (MotionModel.add s
            (MotionModel.ofVec (√(α ^ 2 * (n + κ)) • (chol n P).col j))) dt)) k +
           rotateYaw (MotionModel.toVec (MotionModel.next (MotionModel.sub s
            (MotionModel.ofVec (√(α ^ 2 * (n + κ)) • (chol n P).col j))) dt)) k) := by
  rw [ukfPredict_eq chol s P dt α β κ hN]
  unfold predictedRows
  rw [List.map_cons, computeUt_cons _ _ _ _ _ (by rw [List.length_map, sigmaLoop_length])]
  refine ⟨_, _, rfl, ?_⟩
  intro k
  rw [Pi.add_apply, Pi.smul_apply, Pi.smul_apply, smul_eq_mul, smul_eq_mul]
  congr 2
  unfold sigmaLoop
  rw [List.map_flatMap]
  simp only [List.map_cons, List.map_nil]
  rw [sum_flatMap_pair, ← Fin.sum_univ_def, Finset.sum_apply]
  rfl

end

/-- a standing CTRV object heading π -/
noncomputable def westState : CtrvState := ⟨0, 0, 0, Angle.ofRad Real.pi, 0⟩

theorem west_yaw : (Angle.ofRad Real.pi).getAngle = Real.pi :=
  Angle.getAngle_ofRad_of_range ⟨Real.pi_pos.le, by linarith [Real.pi_pos]⟩

/-- predicting `westState` with unit covariance by zero time turns the heading -/
theorem west_predict {chol : Chol} (hchol : IsLlt chol) {α β κ : ℝ}
    (h1 : 1 ≤ α ^ 2 * (5 + κ)) (h9 : α ^ 2 * (5 + κ) < 9) :
    ∃ s C, ukfPredict chol westState 1 0 α β κ = .ok (s, C) ∧
      s.yaw = Angle.ofRad (Real.pi - yawCut / (α ^ 2 * (5 + κ))) := by
  have hL : chol 5 1 = 1 := by
    have := hchol.diagonal (d := fun _ : Fin 5 => 1) fun _ => one_pos
    rw [diagonal_one] at this
    rw [this, Real.sqrt_one, diagonal_one]
  have hN : 0 < α ^ 2 * (((5 : ℕ) : ℝ) + κ) := by push_cast; linarith
  obtain ⟨x, C, hx, hm⟩ := ukfPredict_mean chol westState 1 0 α β κ hN
  refine ⟨_, _, hx, ?_⟩
  show Angle.ofRad (x 3) = _
  congr 1
  have hm := hm 3
  rw [hL] at hm
  push_cast at hm hN
  set N := α ^ 2 * (5 + κ) with hNd
  have hr1 : 1 ≤ √N := by rw [Real.one_le_sqrt]; exact h1
  have hr3 : √N < 3 := by
    rw [Real.sqrt_lt' (by norm_num)]; norm_num; exact h9
  obtain ⟨c1, c2⟩ := yawCut_bounds
  norm_num at c2
  have hpi := Real.pi_gt_three
  have hpi' := Real.pi_lt_d2
  have hv : MotionLaws.Valid westState := Angle.valid_ofRad _
  have hw3 : (MotionModel.toVec westState : Fin 5 → ℝ) 3 = Real.pi := west_yaw
  have hlow : ∀ {v z : Fin 5 → ℝ}, SameUpToTurns v z → (∀ k : Fin 5, k.1 = 3 → 0 ≤ v k ∧ v k < 2 * Real.pi) →
      0 ≤ z 3 → z 3 ≤ yawCut → rotateYaw v 3 = z 3 := by
    intro v z h1 h2 h3 h4
    rw [row_low h1 h2]
    intro k hk
    rw [show k = 3 from Fin.ext hk]
    exact ⟨h3, h4⟩
  have hhigh : ∀ {v z : Fin 5 → ℝ}, SameUpToTurns v z → (∀ k : Fin 5, k.1 = 3 → 0 ≤ v k ∧ v k < 2 * Real.pi) →
      yawCut < z 3 → z 3 < 2 * Real.pi → rotateYaw v 3 = z 3 - 2 * yawCut := by
    intro v z h1 h2 h3 h4
    rw [row_high h1 h2]
    · simp [headingVec]; ring
    · intro k hk
      rw [show k = 3 from Fin.ext hk]
      exact ⟨h3, h4⟩
  have e0 : rotateYaw (MotionModel.toVec (MotionModel.next westState 0)) 3 = Real.pi := by
    rw [MotionLaws.next_zero _ hv, hlow (sameUpToTurns_refl _) (MotionLaws.range _), hw3]
    · rw [hw3]; linarith
    · rw [hw3]; exact c1.le
  have ene : ∀ j : Fin 5, j ≠ 3 →
      rotateYaw (MotionModel.toVec (MotionModel.next (MotionModel.add westState
        (MotionModel.ofVec (√N • (1 : Matrix (Fin 5) (Fin 5) ℝ).col j))) 0)) 3 +
      rotateYaw (MotionModel.toVec (MotionModel.next (MotionModel.sub westState
        (MotionModel.ofVec (√N • (1 : Matrix (Fin 5) (Fin 5) ℝ).col j))) 0)) 3 = 2 * Real.pi := by
    intro j hj
    have z1 : (MotionModel.toVec westState + √N • (1 : Matrix (Fin 5) (Fin 5) ℝ).col j) 3 = Real.pi := by
      rw [Pi.add_apply, hw3, Pi.smul_apply, col_apply, one_apply_ne hj.symm, smul_zero, add_zero]
    have z2 : (MotionModel.toVec westState - √N • (1 : Matrix (Fin 5) (Fin 5) ℝ).col j) 3 = Real.pi := by
      rw [Pi.sub_apply, hw3, Pi.smul_apply, col_apply, one_apply_ne hj.symm, smul_zero, sub_zero]
    rw [MotionLaws.next_zero _ (MotionLaws.valid_add _ _), MotionLaws.next_zero _ (MotionLaws.valid_sub _ _),
      hlow (MotionLaws.toVec_add _ _) (MotionLaws.range _) (by rw [z1]; linarith) (by rw [z1]; exact c1.le),
      hlow (MotionLaws.toVec_sub _ _) (MotionLaws.range _) (by rw [z2]; linarith) (by rw [z2]; exact c1.le),
      z1, z2]
    ring
  have e3 :
      rotateYaw (MotionModel.toVec (MotionModel.next (MotionModel.add westState
        (MotionModel.ofVec (√N • (1 : Matrix (Fin 5) (Fin 5) ℝ).col 3))) 0)) 3 +
      rotateYaw (MotionModel.toVec (MotionModel.next (MotionModel.sub westState
        (MotionModel.ofVec (√N • (1 : Matrix (Fin 5) (Fin 5) ℝ).col 3))) 0)) 3
      = 2 * Real.pi - 2 * yawCut := by
    have z1 : (MotionModel.toVec westState + √N • (1 : Matrix (Fin 5) (Fin 5) ℝ).col 3) 3 = Real.pi + √N := by
      rw [Pi.add_apply, hw3, Pi.smul_apply, col_apply, one_apply_eq, smul_eq_mul, mul_one]
    have z2 : (MotionModel.toVec westState - √N • (1 : Matrix (Fin 5) (Fin 5) ℝ).col 3) 3 = Real.pi - √N := by
      rw [Pi.sub_apply, hw3, Pi.smul_apply, col_apply, one_apply_eq, smul_eq_mul, mul_one]
    rw [MotionLaws.next_zero _ (MotionLaws.valid_add _ _), MotionLaws.next_zero _ (MotionLaws.valid_sub _ _),
      hhigh (MotionLaws.toVec_add _ _) (MotionLaws.range _) (by rw [z1]; linarith) (by rw [z1]; linarith),
      hlow (MotionLaws.toVec_sub _ _) (MotionLaws.range _) (by rw [z2]; linarith) (by rw [z2]; linarith),
      z1, z2]
    ring
  rw [e0, Fin.sum_univ_five, ene 0 (by decide), ene 1 (by decide), ene 2 (by decide), e3,
    ene 4 (by decide)] at hm
  rw [hm]
  have hlam : generateLambda 5 α κ = N - 5 := by rw [hNd]; unfold generateLambda; push_cast; ring
  rw [hlam]
  field_simp
  ring

end Mot
