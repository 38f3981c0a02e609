import Verif.Proofs.Motion
import Verif.Proofs.Matrix
import Verif.Spec.Distance
import Mathlib.Analysis.Real.Pi.Bounds
/-!
# Properties of the distance functions (C55 – C57), in exact real arithmetic
-/

namespace Mot.Props

open Mot Real Matrix

/-! ## C55 -/

theorem poseDistance_comm (p q : Fin 3 → ℝ) : poseDistance p q = poseDistance q p := by
  unfold poseDistance
  simp only
  rw [← neg_sub q p, neg_dotProduct_neg]

theorem poseDistance_triangle (p q r : Fin 3 → ℝ) :
    poseDistance p r ≤ poseDistance p q + poseDistance q r := by
  unfold poseDistance
  simp only
  have : p - r = (p - q) + (q - r) := by abel
  rw [this]
  exact sqrt_dot_add_le _ _

theorem poseDistance_eq_zero {p q : Fin 3 → ℝ} : poseDistance p q = 0 ↔ p = q := by
  unfold poseDistance
  simp only
  rw [sqrt_dot_eq_zero, sub_eq_zero]

theorem poseDistance_sq (p q : Fin 3 → ℝ) :
    poseDistance p q = √((p 0 - q 0) ^ 2 + (p 1 - q 1) ^ 2 + (p 2 - q 2) ^ 2) := by
  unfold poseDistance
  simp only [dotProduct, Fin.sum_univ_three, Pi.sub_apply]
  congr 1; ring

/-- C55 (CTRV): `euclidean_distance` is a metric on poses. -/
theorem C55_ctrv_metric (s t r : CtrvState) :
    0 ≤ s.euclid t ∧ s.euclid t = t.euclid s ∧ s.euclid r ≤ s.euclid t + t.euclid r ∧
    s.euclid t = √((s.x - t.x) ^ 2 + (s.y - t.y) ^ 2 + (s.yaw.getAngle - t.yaw.getAngle) ^ 2) :=
  ⟨Real.sqrt_nonneg _, poseDistance_comm _ _, poseDistance_triangle _ _ _, poseDistance_sq _ _⟩

/-- C55 (CTRV): zero exactly for equal poses. -/
theorem C55_ctrv_zero_iff (s t : CtrvState) (hs : s.Valid) (ht : t.Valid) :
    s.euclid t = 0 ↔ s.x = t.x ∧ s.y = t.y ∧ s.yaw = t.yaw := by
  unfold CtrvState.euclid
  rw [poseDistance_eq_zero]
  unfold CtrvState.pose
  constructor
  · intro h
    exact ⟨congrFun h 0, congrFun h 1, Angle.getAngle_inj hs ht (congrFun h 2)⟩
  · rintro ⟨h1, h2, h3⟩
    rw [h1, h2, h3]

/-- C55 (CTRA): `euclidean_distance` is a metric on poses. -/
theorem C55_ctra_metric (s t r : CtraState) :
    0 ≤ s.euclid t ∧ s.euclid t = t.euclid s ∧ s.euclid r ≤ s.euclid t + t.euclid r ∧
    s.euclid t = √((s.x - t.x) ^ 2 + (s.y - t.y) ^ 2 + (s.yaw.getAngle - t.yaw.getAngle) ^ 2) :=
  ⟨Real.sqrt_nonneg _, poseDistance_comm _ _, poseDistance_triangle _ _ _, poseDistance_sq _ _⟩

/-- C55 (CTRA): zero exactly for equal poses. -/
theorem C55_ctra_zero_iff (s t : CtraState) (hs : s.Valid) (ht : t.Valid) :
    s.euclid t = 0 ↔ s.x = t.x ∧ s.y = t.y ∧ s.yaw = t.yaw := by
  unfold CtraState.euclid
  rw [poseDistance_eq_zero]
  unfold CtraState.pose
  constructor
  · intro h
    exact ⟨congrFun h 0, congrFun h 1, Angle.getAngle_inj hs ht (congrFun h 2)⟩
  · rintro ⟨h1, h2, h3⟩
    rw [h1, h2, h3]

example : CtrvState.euclid ⟨0, 0, 1, Angle.ofRad 0, 0⟩ ⟨3, 4, 7, Angle.ofRad 0, 1⟩ = 5 := by
  rw [(C55_ctrv_metric _ _ ⟨0, 0, 1, Angle.ofRad 0, 0⟩).2.2.2]
  rw [show ((0 : ℝ) - 3) ^ 2 + (0 - 4) ^ 2
    + ((Angle.ofRad 0).getAngle - (Angle.ofRad 0).getAngle) ^ 2 = 5 ^ 2 by ring]
  exact Real.sqrt_sq (by norm_num)

/-! ## C56 -/

/-- C56 is false: two objects at the same position whose headings differ by 1/100 rad
on the circle have a Euclidean score above 6. -/
theorem C56_heading_wraps :
    ∃ s t : CtrvState, s.Valid ∧ t.Valid ∧ s.x = t.x ∧ s.y = t.y ∧
      IsCircDist (1 / 100) s.yaw.getAngle t.yaw.getAngle ∧ 6 < s.euclid t := by
  have hp := Real.pi_gt_d2
  refine ⟨⟨0, 0, 0, Angle.ofRad 0, 0⟩, ⟨0, 0, 0, Angle.ofRad (2 * π - 1 / 100), 0⟩,
    Angle.valid_ofRad _, Angle.valid_ofRad _, rfl, rfl, ?_, ?_⟩
  · simp only
    rw [Angle.getAngle_ofRad_of_range ⟨le_rfl, by linarith⟩,
      Angle.getAngle_ofRad_of_range ⟨by linarith, by linarith⟩]
    refine ⟨⟨1, ?_⟩, fun k => ?_⟩
    · rw [Int.cast_one, abs_of_pos (by linarith)]; ring
    · rcases le_or_gt k 0 with hk | hk
      · have : (k : ℝ) ≤ 0 := by exact_mod_cast hk
        rw [abs_of_neg (by nlinarith)]
        nlinarith
      · have : (1 : ℝ) ≤ k := by exact_mod_cast hk
        rw [abs_of_pos (by nlinarith)]
        nlinarith
  · rw [(C55_ctrv_metric _ _ ⟨0, 0, 0, Angle.ofRad 0, 0⟩).2.2.2]
    simp only
    rw [Angle.getAngle_ofRad_of_range ⟨le_rfl, by linarith⟩,
      Angle.getAngle_ofRad_of_range ⟨by linarith, by linarith⟩]
    apply Real.lt_sqrt_of_sq_lt
    nlinarith

/-- C56, what holds: the heading contribution is the difference of the reported values,
which is the circular distance when it is at most π (both models). -/
theorem C56_heading_partial (s t : CtrvState) (s' t' : CtraState) :
    (s.x = t.x → s.y = t.y → s.euclid t = |s.yaw.getAngle - t.yaw.getAngle|) ∧
    (s'.x = t'.x → s'.y = t'.y → s'.euclid t' = |s'.yaw.getAngle - t'.yaw.getAngle|) ∧
    (|s.yaw.getAngle - t.yaw.getAngle| ≤ π →
      IsCircDist |s.yaw.getAngle - t.yaw.getAngle| s.yaw.getAngle t.yaw.getAngle) := by
  have hp := Real.pi_pos
  refine ⟨fun hx hy => ?_, fun hx hy => ?_, fun h => ⟨⟨0, by simp⟩, fun k => ?_⟩⟩
  · rw [(C55_ctrv_metric s t s).2.2.2, hx, hy, ← Real.sqrt_sq_eq_abs]
    congr 1; ring
  · rw [(C55_ctra_metric s' t' s').2.2.2, hx, hy, ← Real.sqrt_sq_eq_abs]
    congr 1; ring
  · generalize s.yaw.getAngle - t.yaw.getAngle = δ at h ⊢
    have h1 := abs_le.1 h
    rcases lt_trichotomy k 0 with hk | hk | hk
    · have : (k : ℝ) ≤ -1 := by exact_mod_cast (by omega : k ≤ -1)
      have h2 : δ + k * (2 * π) ≤ 0 := by nlinarith
      rw [abs_of_nonpos h2]
      apply abs_le.2
      constructor <;> nlinarith
    · subst hk; simp
    · have : (1 : ℝ) ≤ k := by exact_mod_cast hk
      have h2 : 0 ≤ δ + k * (2 * π) := by nlinarith
      rw [abs_of_nonneg h2]
      apply abs_le.2
      constructor <;> nlinarith

/-- C56, exactly: at the same position the score is never below the circular distance of the
headings, and equals it if and only if the reported headings differ by at most π. -/
theorem C56_heading_iff (s t : CtrvState) (s' t' : CtraState) :
    (s.x = t.x → s.y = t.y →
      (∀ d, IsCircDist d s.yaw.getAngle t.yaw.getAngle → d ≤ s.euclid t) ∧
      (IsCircDist (s.euclid t) s.yaw.getAngle t.yaw.getAngle ↔
        |s.yaw.getAngle - t.yaw.getAngle| ≤ π)) ∧
    (s'.x = t'.x → s'.y = t'.y →
      (∀ d, IsCircDist d s'.yaw.getAngle t'.yaw.getAngle → d ≤ s'.euclid t') ∧
      (IsCircDist (s'.euclid t') s'.yaw.getAngle t'.yaw.getAngle ↔
        |s'.yaw.getAngle - t'.yaw.getAngle| ≤ π)) := by
  have hp := Real.pi_pos
  have key : ∀ x y : ℝ, IsCircDist |x - y| x y → |x - y| ≤ π := by
    intro x y h
    have h1 := h.2 1
    have h2 := h.2 (-1)
    push_cast at h1 h2
    generalize x - y = δ at *
    rcases le_total 0 δ with hδ | hδ
    · rw [abs_of_nonneg hδ] at h2 ⊢
      rcases le_or_gt δ π with h3 | h3
      · exact h3
      · exfalso
        have : |δ + -1 * (2 * π)| < δ := abs_lt.2 ⟨by linarith, by linarith⟩
        linarith
    · rw [abs_of_nonpos hδ] at h1 ⊢
      rcases le_or_gt (-δ) π with h3 | h3
      · exact h3
      · exfalso
        have : |δ + 1 * (2 * π)| < -δ := abs_lt.2 ⟨by linarith, by linarith⟩
        linarith
  have low : ∀ x y d : ℝ, IsCircDist d x y → d ≤ |x - y| := by
    intro x y d h
    simpa using h.2 0
  refine ⟨fun hx hy => ?_, fun hx hy => ?_⟩
  · rw [(C56_heading_partial s t s' t').1 hx hy]
    exact ⟨fun d => low _ _ d, key _ _, (C56_heading_partial s t s' t').2.2⟩
  · rw [(C56_heading_partial s t s' t').2.1 hx hy]
    exact ⟨fun d => low _ _ d, key _ _,
      (C56_heading_partial ⟨0, 0, 0, s'.yaw, 0⟩ ⟨0, 0, 0, t'.yaw, 0⟩ s' t').2.2⟩

/-! ## C57 -/

theorem ctrvPose_eq (P : CtrvCov) : P.pose = poseBlock (n := 1) P := by
  unfold CtrvCov.pose poseBlock
  ext i j
  fin_cases i <;> fin_cases j <;> rfl

theorem ctraPose_eq (P : CtraCov) : P.pose = poseBlock (n := 2) P := by
  unfold CtraCov.pose poseBlock
  ext i j
  fin_cases i <;> fin_cases j <;> rfl

theorem poseBlock_posDef {n : ℕ} {P : Matrix (Fin (n + 4)) (Fin (n + 4)) ℝ} (h : P.PosDef) :
    (poseBlock P).PosDef := by
  refine h.submatrix ?_
  intro i j hij
  fin_cases i <;> fin_cases j <;> 
    first
    | rfl
    | (exfalso; revert hij; simp only [Fin.ext_iff]; simp [Nat.mod_eq_of_lt]; try omega)

theorem poseMahalanobis_eq {C : Matrix (Fin 3) (Fin 3) ℝ} (hC : C.PosDef) (p q : Fin 3 → ℝ) :
    poseMahalanobis C p q = some √((p - q) ⬝ᵥ (C⁻¹ *ᵥ (p - q))) := by
  unfold poseMahalanobis
  simp only
  rw [← dotProduct_mulVec,
    if_pos ⟨(Matrix.isUnit_iff_isUnit_det C).1 hC.isUnit, quad_nonneg hC.inv.posSemidef _⟩]

theorem isStatDistance {C : Matrix (Fin 3) (Fin 3) ℝ} (hC : C.PosDef) (δ : Fin 3 → ℝ) :
    IsStatDistance C δ √(δ ⬝ᵥ (C⁻¹ *ᵥ δ)) := by
  have hq := quad_nonneg hC.inv.posSemidef δ
  have hdet : IsUnit C.det := (Matrix.isUnit_iff_isUnit_det C).1 hC.isUnit
  set u := C⁻¹ *ᵥ δ with hu
  have hCu : C *ᵥ u = δ := by
    rw [hu, mulVec_mulVec, Matrix.mul_nonsing_inv _ hdet, one_mulVec]
  have huu : u ⬝ᵥ (C *ᵥ u) = δ ⬝ᵥ u := by rw [hCu, dotProduct_comm]
  refine ⟨⟨Real.sqrt_nonneg _, fun w => ?_⟩, ?_⟩
  · rw [Real.sq_sqrt hq, ← huu]
    obtain ⟨B, hB⟩ := exists_factor hC.posSemidef
    have e1 : w ⬝ᵥ δ = (B *ᵥ w) ⬝ᵥ (B *ᵥ u) := by
      rw [← hCu, hB, ← mulVec_mulVec, dotProduct_mulVec, vecMul_transpose]
    rw [e1, hB, quad_factor, quad_factor, mul_comm]
    simp only [dotProduct, ← sq]
    exact Finset.sum_mul_sq_le_sq_mul_sq _ _ _
  · rintro d ⟨hd0, hd⟩
    have h1 := hd u
    rw [huu, dotProduct_comm u δ] at h1
    apply Real.sqrt_le_iff.2 ⟨hd0, ?_⟩
    rcases hq.lt_or_eq with h | h
    · have : (δ ⬝ᵥ u) * (δ ⬝ᵥ u) ≤ d ^ 2 * (δ ⬝ᵥ u) := by rw [← sq]; exact h1
      exact le_of_mul_le_mul_right this h
    · rw [← h]; positivity

/-- C57 (CTRV): for a positive definite covariance the score exists and is the number of
standard deviations between the poses. -/
theorem C57_ctrv_stat_distance (m q : CtrvState) (P : CtrvCov) (hP : P.PosDef) :
    ∃ d, m.mahalanobis P q = some d ∧
      IsStatDistance (poseBlock (n := 1) P)
        ![m.x - q.x, m.y - q.y, m.yaw.getAngle - q.yaw.getAngle] d := by
  have h := poseBlock_posDef (n := 1) hP
  refine ⟨_, by unfold CtrvState.mahalanobis; rw [ctrvPose_eq, poseMahalanobis_eq h], ?_⟩
  have e : m.pose - q.pose = ![m.x - q.x, m.y - q.y, m.yaw.getAngle - q.yaw.getAngle] := by
    ext i; fin_cases i <;> rfl
  rw [e]
  exact isStatDistance h _

/-- C57 (CTRA): for a positive definite covariance the score exists and is the number of
standard deviations between the poses. -/
theorem C57_ctra_stat_distance (m q : CtraState) (P : CtraCov) (hP : P.PosDef) :
    ∃ d, m.mahalanobis P q = some d ∧
      IsStatDistance (poseBlock (n := 2) P)
        ![m.x - q.x, m.y - q.y, m.yaw.getAngle - q.yaw.getAngle] d := by
  have h := poseBlock_posDef (n := 2) hP
  refine ⟨_, by unfold CtraState.mahalanobis; rw [ctraPose_eq, poseMahalanobis_eq h], ?_⟩
  have e : m.pose - q.pose = ![m.x - q.x, m.y - q.y, m.yaw.getAngle - q.yaw.getAngle] := by
    ext i; fin_cases i <;> rfl
  rw [e]
  exact isStatDistance h _

theorem poseMahalanobis_facts {C : Matrix (Fin 3) (Fin 3) ℝ} (hC : C.PosDef) (p q r : Fin 3 → ℝ) :
    ∃ d e f, poseMahalanobis C p q = some d ∧ poseMahalanobis C q r = some e ∧
      poseMahalanobis C p r = some f ∧ poseMahalanobis C q p = some d ∧
      0 ≤ d ∧ (d = 0 ↔ p = q) ∧ f ≤ d + e ∧
      ∀ c : ℝ, 0 < c → poseMahalanobis (c • C) p q = some (d / √c) := by
  refine ⟨_, _, _, poseMahalanobis_eq hC p q, poseMahalanobis_eq hC q r,
    poseMahalanobis_eq hC p r, ?_, Real.sqrt_nonneg _, ?_, ?_, ?_⟩
  · rw [poseMahalanobis_eq hC, ← neg_sub p q, mulVec_neg, neg_dotProduct_neg]
  · rw [Real.sqrt_eq_zero (quad_nonneg hC.inv.posSemidef _)]
    constructor
    · intro h
      by_contra hne
      exact (quad_pos hC.inv (sub_ne_zero.2 hne)).ne' h
    · rintro rfl; simp
  · have : p - r = (p - q) + (q - r) := by abel
    rw [this]
    exact sqrt_quad_add_le hC.inv.posSemidef _ _
  · intro c hc
    have hcC : (c • C).PosDef := hC.smul hc
    have hdet : IsUnit C.det := (Matrix.isUnit_iff_isUnit_det C).1 hC.isUnit
    have hinv : (c • C)⁻¹ = c⁻¹ • C⁻¹ := by
      apply Matrix.inv_eq_right_inv
      rw [Matrix.smul_mul, Matrix.mul_smul, smul_smul, mul_inv_cancel₀ hc.ne', one_smul,
        Matrix.mul_nonsing_inv _ hdet]
    rw [poseMahalanobis_eq hcC, hinv, smul_mulVec, dotProduct_smul, smul_eq_mul,
      ← Real.sqrt_div' _ hc.le, div_eq_inv_mul]

/-- C57: symmetry, separation, triangle inequality and scaling (CTRV). -/
theorem C57_ctrv_metric (m q r : CtrvState) (P : CtrvCov) (hP : P.PosDef)
    (hm : m.Valid) (hq : q.Valid) :
    ∃ d e f, m.mahalanobis P q = some d ∧ q.mahalanobis P r = some e ∧
      m.mahalanobis P r = some f ∧ q.mahalanobis P m = some d ∧
      0 ≤ d ∧ (d = 0 ↔ m.x = q.x ∧ m.y = q.y ∧ m.yaw = q.yaw) ∧ f ≤ d + e ∧
      ∀ c : ℝ, 0 < c → m.mahalanobis (c • P) q = some (d / √c) := by
  have h := poseBlock_posDef (n := 1) hP
  obtain ⟨d, e, f, h1, h2, h3, h4, h5, h6, h7, h8⟩ := poseMahalanobis_facts h m.pose q.pose r.pose
  refine ⟨d, e, f, ?_, ?_, ?_, ?_, h5, ?_, h7, ?_⟩
  · unfold CtrvState.mahalanobis; rw [ctrvPose_eq, h1]
  · unfold CtrvState.mahalanobis; rw [ctrvPose_eq, h2]
  · unfold CtrvState.mahalanobis; rw [ctrvPose_eq, h3]
  · unfold CtrvState.mahalanobis; rw [ctrvPose_eq, h4]
  · rw [h6, ← C55_ctrv_zero_iff m q hm hq, CtrvState.euclid, poseDistance_eq_zero]
  · intro c hc
    unfold CtrvState.mahalanobis
    rw [ctrvPose_eq, ← h8 c hc]
    rfl

/-- C57: symmetry, separation, triangle inequality and scaling (CTRA). -/
theorem C57_ctra_metric (m q r : CtraState) (P : CtraCov) (hP : P.PosDef)
    (hm : m.Valid) (hq : q.Valid) :
    ∃ d e f, m.mahalanobis P q = some d ∧ q.mahalanobis P r = some e ∧
      m.mahalanobis P r = some f ∧ q.mahalanobis P m = some d ∧
      0 ≤ d ∧ (d = 0 ↔ m.x = q.x ∧ m.y = q.y ∧ m.yaw = q.yaw) ∧ f ≤ d + e ∧
      ∀ c : ℝ, 0 < c → m.mahalanobis (c • P) q = some (d / √c) := by
  have h := poseBlock_posDef (n := 2) hP
  obtain ⟨d, e, f, h1, h2, h3, h4, h5, h6, h7, h8⟩ := poseMahalanobis_facts h m.pose q.pose r.pose
  refine ⟨d, e, f, ?_, ?_, ?_, ?_, h5, ?_, h7, ?_⟩
  · unfold CtraState.mahalanobis; rw [ctraPose_eq, h1]
  · unfold CtraState.mahalanobis; rw [ctraPose_eq, h2]
  · unfold CtraState.mahalanobis; rw [ctraPose_eq, h3]
  · unfold CtraState.mahalanobis; rw [ctraPose_eq, h4]
  · rw [h6, ← C55_ctra_zero_iff m q hm hq, CtraState.euclid, poseDistance_eq_zero]
  · intro c hc
    unfold CtraState.mahalanobis
    rw [ctraPose_eq, ← h8 c hc]
    rfl

/-- C57: for the identity covariance the Mahalanobis score is the Euclidean score. -/
theorem C57_identity (m q : CtrvState) (m' q' : CtraState) :
    m.mahalanobis 1 q = some (m.euclid q) ∧ m'.mahalanobis 1 q' = some (m'.euclid q') := by
  have h1 : (1 : CtrvCov).pose = 1 := by
    unfold CtrvCov.pose
    ext i j; fin_cases i <;> fin_cases j <;> simp
  have h2 : (1 : CtraCov).pose = 1 := by
    unfold CtraCov.pose
    ext i j; fin_cases i <;> fin_cases j <;> simp
  constructor
  · unfold CtrvState.mahalanobis
    rw [h1, poseMahalanobis_eq Matrix.PosDef.one, inv_one, one_mulVec]
    rfl
  · unfold CtraState.mahalanobis
    rw [h2, poseMahalanobis_eq Matrix.PosDef.one, inv_one, one_mulVec]
    rfl

/-- C57: positive definiteness is needed; with the zero covariance there is no value. -/
theorem C57_singular (m q : CtrvState) : m.mahalanobis 0 q = none := by
  have h : (0 : CtrvCov).pose = 0 := by
    unfold CtrvCov.pose
    ext i j; fin_cases i <;> fin_cases j <;> rfl
  unfold CtrvState.mahalanobis poseMahalanobis
  rw [h]
  simp

example : (Matrix.diagonal (fun i : Fin 5 => (i.1 : ℝ) + 1)).PosDef :=
  Matrix.PosDef.diagonal fun i => by positivity

end Mot.Props
