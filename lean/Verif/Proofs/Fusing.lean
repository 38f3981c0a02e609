import Verif.Model.Fusing
import Verif.Proofs.Matrix
import Verif.Proofs.Motion
import Mathlib.Analysis.Matrix.PosDef
import Mathlib.Analysis.Real.Pi.Bounds
/-!
# Lemmas about fusing
-/

namespace Mot

open Matrix

section Det
variable {n : Type*} [Fintype n] [DecidableEq n]

/-- adding a positive definite matrix to the identity increases the determinant -/
theorem one_lt_det_one_add [Nonempty n] {M : Matrix n n ℝ} (hM : M.PosDef) : 1 < (1 + M).det := by
  have hs := hM.isHermitian.spectral_theorem
  rw [Unitary.conjStarAlgAut_apply] at hs
  set U : Matrix n n ℝ := (hM.isHermitian.eigenvectorUnitary : Matrix n n ℝ) with hU
  have hUU : U * star U = 1 := Unitary.coe_mul_star_self hM.isHermitian.eigenvectorUnitary
  have e : 1 + M = U * (1 + diagonal hM.isHermitian.eigenvalues) * star U := by
    rw [mul_add, add_mul, mul_one, hUU]
    congr 1
  have hdet : U.det * (star U).det = 1 := by rw [← det_mul, hUU, det_one]
  have hd : (1 + M).det = ∏ i, (1 + hM.isHermitian.eigenvalues i) := by
    rw [e, det_mul, det_mul, mul_right_comm, hdet, one_mul, ← diagonal_one, diagonal_add, det_diagonal]
  rw [hd]
  have := Finset.prod_lt_prod_of_nonempty (s := (Finset.univ : Finset n)) (f := fun _ => (1 : ℝ))
    (g := fun i => 1 + hM.isHermitian.eigenvalues i) (fun _ _ => one_pos)
    (fun i _ => by linarith [hM.eigenvalues_pos i]) Finset.univ_nonempty
  simpa using this

/-- the determinant increases strictly under addition of positive definite matrices -/
theorem det_lt_det_add [Nonempty n] {A B : Matrix n n ℝ} (hA : A.PosDef) (hB : B.PosDef) :
    A.det < (A + B).det := by
  obtain ⟨C, hC⟩ := exists_factor hA.posSemidef
  have hdA := hA.det_pos
  have hdC : C.det ≠ 0 := by
    intro h
    rw [hC, det_mul, h, mul_zero] at hdA
    exact lt_irrefl _ hdA
  have hu : IsUnit C.det := isUnit_iff_ne_zero.2 hdC
  have hM : ((C⁻¹)ᵀ * B * C⁻¹).PosDef := by
    have := hB.conjTranspose_mul_mul_same (B := C⁻¹) (Matrix.mulVec_injective_of_isUnit
      ((Matrix.isUnit_iff_isUnit_det _).2 (by simpa using hu)))
    rwa [conjTranspose_eq_transpose_of_trivial] at this
  have e : A + B = Cᵀ * (1 + (C⁻¹)ᵀ * B * C⁻¹) * C := by
    rw [mul_add, add_mul, mul_one, ← hC]
    congr 1
    rw [← mul_assoc, ← mul_assoc, ← transpose_mul, nonsing_inv_mul _ hu, transpose_one, one_mul,
      mul_assoc, nonsing_inv_mul _ hu, mul_one]
  have h1 := one_lt_det_one_add hM
  have h2 : (A + B).det = A.det * (1 + (C⁻¹)ᵀ * B * C⁻¹).det := by
    rw [e, det_mul, det_mul, hC, det_mul]; ring
  rw [h2]
  exact lt_mul_of_one_lt_right hdA h1

end Det

variable {n : ℕ}

/-- the weight is a proper convex weight -/
theorem generateWeight_posDef [NeZero n] {A B : Matrix (Fin n) (Fin n) ℝ} (hA : A.PosDef)
    (hB : B.PosDef) : ∃ w, generateWeight A B = some w ∧ 0 < w ∧ w < 1 ∧
      w = ((A + B).det - B.det + A.det) / (2 * (A + B).det) := by
  have h1 := det_lt_det_add hA hB
  have h2 := det_lt_det_add hB hA
  rw [add_comm B A] at h2
  have h3 := hA.det_pos
  have h4 := hB.det_pos
  have h5 : (A + B).det ≠ 0 := by linarith
  refine ⟨_, by simp only [generateWeight, if_neg h5], ?_, ?_, rfl⟩
  · apply div_pos <;> linarith
  · rw [div_lt_one (by linarith)]; linarith

theorem combined_posDef {A B : Matrix (Fin n) (Fin n) ℝ} (hA : A.PosDef) (hB : B.PosDef) {w : ℝ}
    (h0 : 0 < w) (h1 : w < 1) : (w • A + (1 - w) • B).PosDef :=
  (hA.smul h0).add (hB.smul (by linarith))

theorem PosDef.isUnit_det {A : Matrix (Fin n) (Fin n) ℝ} (hA : A.PosDef) : IsUnit A.det :=
  isUnit_iff_ne_zero.2 hA.det_pos.ne'

/-- with a proper weight the intersection is defined -/
theorem covIntersection_posDef {A B : Matrix (Fin n) (Fin n) ℝ} (hA : A.PosDef) (hB : B.PosDef)
    {w : ℝ} (h0 : 0 < w) (h1 : w < 1) (m₁ m₂ : Fin n → ℝ) :
    covIntersection m₁ A m₂ B w = some
      ((w • A + (1 - w) • B)⁻¹ *ᵥ (w • (A *ᵥ rotateYaw m₁) + (1 - w) • (B *ᵥ rotateYaw m₂)),
        (w • A + (1 - w) • B)⁻¹) := by
  unfold covIntersection
  exact if_pos (PosDef.isUnit_det (combined_posDef hA hB h0 h1))

theorem inverse?_posDef {P : Matrix (Fin n) (Fin n) ℝ} (hP : P.PosDef) : inverse? P = some P⁻¹ :=
  if_pos (PosDef.isUnit_det hP)

/-- the weight used when fusing covariances `P` and `Q` -/
noncomputable def fuseWeight (P Q : Matrix (Fin n) (Fin n) ℝ) : ℝ :=
  ((P⁻¹ + Q⁻¹).det - (Q⁻¹).det + (P⁻¹).det) / (2 * (P⁻¹ + Q⁻¹).det)

theorem fuseWeight_spec [NeZero n] {P Q : Matrix (Fin n) (Fin n) ℝ} (hP : P.PosDef) (hQ : Q.PosDef) :
    generateWeight P⁻¹ Q⁻¹ = some (fuseWeight P Q) ∧ 0 < fuseWeight P Q ∧ fuseWeight P Q < 1 := by
  obtain ⟨w, h1, h2, h3, rfl⟩ := generateWeight_posDef hP.inv hQ.inv
  exact ⟨h1, h2, h3⟩

theorem fuseWeight_swap [NeZero n] {P Q : Matrix (Fin n) (Fin n) ℝ} (hP : P.PosDef) (hQ : Q.PosDef) :
    fuseWeight Q P = 1 - fuseWeight P Q := by
  have h := det_lt_det_add hP.inv hQ.inv
  have h' := hP.inv.det_pos
  have hne : (P⁻¹ + Q⁻¹).det ≠ 0 := by linarith
  unfold fuseWeight
  rw [add_comm Q⁻¹ P⁻¹]
  field_simp
  ring

/-- inverse of the combined covariance -/
noncomputable def fuseInfo (P Q : Matrix (Fin n) (Fin n) ℝ) : Matrix (Fin n) (Fin n) ℝ :=
  fuseWeight P Q • P⁻¹ + (1 - fuseWeight P Q) • Q⁻¹

theorem fuseInfo_posDef [NeZero n] {P Q : Matrix (Fin n) (Fin n) ℝ} (hP : P.PosDef)
    (hQ : Q.PosDef) : (fuseInfo P Q).PosDef :=
  have h := fuseWeight_spec hP hQ
  combined_posDef hP.inv hQ.inv h.2.1 h.2.2

theorem fuseInfo_swap [NeZero n] {P Q : Matrix (Fin n) (Fin n) ℝ} (hP : P.PosDef)
    (hQ : Q.PosDef) : fuseInfo Q P = fuseInfo P Q := by
  unfold fuseInfo
  rw [fuseWeight_swap hP hQ, sub_sub_cancel, add_comm]

/-- closed form of fusing two estimates -/
theorem fusePair_posDef {S : Type} [NeZero n] [MotionModel S n]
    (t d : DynObj S (Matrix (Fin n) (Fin n) ℝ)) (ht : t.covariance.PosDef)
    (hd : d.covariance.PosDef) :
    fusePair t d = .ok { t with
      timestamp := d.timestamp
      state := MotionModel.ofVec ((fuseInfo t.covariance d.covariance)⁻¹ *ᵥ
        (fuseWeight t.covariance d.covariance •
            (t.covariance⁻¹ *ᵥ rotateYaw (MotionModel.toVec t.state)) +
          (1 - fuseWeight t.covariance d.covariance) •
            (d.covariance⁻¹ *ᵥ rotateYaw (MotionModel.toVec d.state))))
      covariance := (fuseInfo t.covariance d.covariance)⁻¹ } := by
  obtain ⟨h1, h2, h3⟩ := fuseWeight_spec ht hd
  unfold fusePair
  rw [inverse?_posDef ht, inverse?_posDef hd]
  simp only [h1, covIntersection_posDef ht.inv hd.inv h2 h3]
  rfl

/-! ## The cut -/

theorem yawCut_bounds : Real.pi < yawCut ∧ yawCut - Real.pi < 1 / 10 ^ 12 := by
  have h1 := Real.pi_gt_d20
  have h2 := Real.pi_lt_d20
  unfold yawCut
  constructor
  · linarith
  · norm_num at h1 h2 ⊢; linarith

theorem rotateYaw_of_ne {m : Fin n → ℝ} {i : Fin n} (h : i.1 ≠ 3) : rotateYaw m i = m i := by
  simp [rotateYaw, h]

theorem rotateYaw_of_le {m : Fin n → ℝ} (h : ∀ i : Fin n, i.1 = 3 → m i ≤ yawCut) :
    rotateYaw m = m := by
  funext i
  unfold rotateYaw
  rw [if_neg]
  rintro ⟨h1, h2⟩
  exact absurd (h i h1) (not_le.2 h2)

/-! ## fuse_associations -/

section Loop
variable {τ δ S C S' C' : Type} [TrackOps τ S C] [TrackOps δ S' C']

/-- evaluate a list of visits in order, after `acc` -/
def fuseList (visitor : τ → δ → Outcome τ) : List (τ × δ) → List τ → Outcome (List τ)
  | [], acc => .ok acc
  | (t, d) :: l, acc => match visitor t d with
    | .ok f => fuseList visitor l (acc ++ [f])
    | .throw e => .throw e
    | .ub w => .ub w

theorem fuseList_append (visitor : τ → δ → Outcome τ) (l l' : List (τ × δ)) (acc : List τ) :
    fuseList visitor (l ++ l') acc = match fuseList visitor l acc with
      | .ok acc' => fuseList visitor l' acc'
      | .throw e => .throw e
      | .ub w => .ub w := by
  induction l generalizing acc with
  | nil => rfl
  | cons p l ih =>
    obtain ⟨t, d⟩ := p
    simp only [List.cons_append, fuseList]
    cases visitor t d with
    | ok f => exact ih _
    | throw e => rfl
    | ub w => rfl

theorem fuseList_eq_mapM' (visitor : τ → δ → Outcome τ) (l : List (τ × δ)) (acc : List τ) :
    fuseList visitor l acc = match Outcome.mapM' (fun p => visitor p.1 p.2) l with
      | .ok fs => .ok (acc ++ fs)
      | .throw e => .throw e
      | .ub w => .ub w := by
  induction l generalizing acc with
  | nil => simp [fuseList, Outcome.mapM']
  | cons p l ih =>
    obtain ⟨t, d⟩ := p
    simp only [fuseList, Outcome.mapM']
    cases visitor t d with
    | ok f =>
      simp only [ih]
      cases Outcome.mapM' (fun p : τ × δ => visitor p.1 p.2) l <;> simp
    | throw e => rfl
    | ub w => rfl

theorem fuseDetections_eq (visitor : τ → δ → Outcome τ) (us : List Uuid) (t : τ) (ds : List δ)
    (acc : List τ) : fuseDetections visitor us t ds acc =
      fuseList visitor ((ds.filter fun d => TrackOps.uuid d ∈ us).map fun d => (t, d)) acc := by
  induction ds generalizing acc with
  | nil => rfl
  | cons d ds ih =>
    simp only [fuseDetections]
    by_cases h : TrackOps.uuid d ∈ us
    · rw [if_pos h, List.filter_cons_of_pos (by simpa using h), List.map_cons, fuseList]
      cases visitor t d with
      | ok f => exact ih _
      | throw e => rfl
      | ub w => rfl
    · rw [if_neg h, List.filter_cons_of_neg (by simpa using h), ih]

theorem fuseTracks_eq (visitor : τ → δ → Outcome τ) (u : Uuid) (us : List Uuid) (ds : List δ)
    (ts : List τ) (acc : List τ) : fuseTracks visitor u us ds ts acc =
      fuseList visitor ((ts.filter fun t => TrackOps.uuid t = u).flatMap fun t =>
        (ds.filter fun d => TrackOps.uuid d ∈ us).map fun d => (t, d)) acc := by
  induction ts generalizing acc with
  | nil => rfl
  | cons t ts ih =>
    simp only [fuseTracks]
    by_cases h : TrackOps.uuid t = u
    · rw [if_pos h, List.filter_cons_of_pos (by simpa using h), List.flatMap_cons, fuseList_append,
        fuseDetections_eq]
      cases fuseList visitor ((ds.filter fun d => TrackOps.uuid d ∈ us).map fun d => (t, d)) acc with
      | ok f => exact ih _
      | throw e => rfl
      | ub w => rfl
    · rw [if_neg h, List.filter_cons_of_neg (by simpa using h), ih]

theorem fuseLoop_eq (visitor : τ → δ → Outcome τ) (ts : List τ) (ds : List δ)
    (l : List (Uuid × List Uuid)) (acc : List τ) : fuseLoop visitor ts ds l acc =
      fuseList visitor (l.flatMap fun a => (ts.filter fun t => TrackOps.uuid t = a.1).flatMap fun t =>
        (ds.filter fun d => TrackOps.uuid d ∈ a.2).map fun d => (t, d)) acc := by
  induction l generalizing acc with
  | nil => rfl
  | cons a l ih =>
    obtain ⟨u, us⟩ := a
    simp only [fuseLoop]
    rw [List.flatMap_cons, fuseList_append, fuseTracks_eq]
    cases fuseList visitor ((ts.filter fun t => TrackOps.uuid t = u).flatMap fun t =>
        (ds.filter fun d => TrackOps.uuid d ∈ us).map fun d => (t, d)) acc with
    | ok f => exact ih _
    | throw e => rfl
    | ub w => rfl

end Loop

end Mot

namespace Mot

open Matrix

variable {n : ℕ}

/-! ## Components of the fused mean -/

/-- equal covariances have weight one half -/
theorem fuseWeight_self [NeZero n] {P : Matrix (Fin n) (Fin n) ℝ} (hP : P.PosDef) :
    fuseWeight P P = 1 / 2 := by
  have := fuseWeight_swap hP hP
  linarith

theorem fuseInfo_self [NeZero n] {P : Matrix (Fin n) (Fin n) ℝ} (hP : P.PosDef) :
    fuseInfo P P = P⁻¹ := by
  unfold fuseInfo
  rw [fuseWeight_self hP, ← add_smul]
  norm_num

/-- equal covariances: the fused mean is the midpoint -/
theorem fused_mean_self [NeZero n] {P : Matrix (Fin n) (Fin n) ℝ} (hP : P.PosDef)
    (m₁ m₂ : Fin n → ℝ) :
    (fuseInfo P P)⁻¹ *ᵥ (fuseWeight P P • (P⁻¹ *ᵥ m₁) + (1 - fuseWeight P P) • (P⁻¹ *ᵥ m₂)) =
      (1 / 2 : ℝ) • (m₁ + m₂) := by
  have hu := PosDef.isUnit_det hP
  rw [fuseInfo_self hP, fuseWeight_self hP, nonsing_inv_nonsing_inv _ hu]
  rw [show (1 : ℝ) - 1 / 2 = 1 / 2 by norm_num, ← smul_add, ← mulVec_add, mulVec_smul, mulVec_mulVec,
    mul_nonsing_inv _ hu, one_mulVec]

/-- a row without off-diagonal elements stays so under inversion -/
theorem inv_row_of_decoupled {P : Matrix (Fin n) (Fin n) ℝ} (hP : P.PosDef) {k : Fin n}
    (hk : ∀ j, j ≠ k → P k j = 0) : 0 < P k k ∧ P⁻¹ k = (P k k)⁻¹ • Pi.single k 1 := by
  have hpos : 0 < P k k := hP.diag_pos
  refine ⟨hpos, ?_⟩
  have hu := PosDef.isUnit_det hP
  have h1 : (Pi.single k 1 : Fin n → ℝ) ᵥ* P = P k k • Pi.single k 1 := by
    funext j
    rw [single_one_vecMul]
    by_cases h : j = k
    · subst h; simp
    · simp [hk j h, h]
  have h2 : (Pi.single k 1 : Fin n → ℝ) = P k k • P⁻¹ k := by
    have h3 : ((Pi.single k 1 : Fin n → ℝ) ᵥ* P) ᵥ* P⁻¹ = Pi.single k 1 := by
      rw [vecMul_vecMul, mul_nonsing_inv _ hu, vecMul_one]
    rw [h1, smul_vecMul, single_one_vecMul] at h3
    exact h3.symm
  rw [h2, smul_smul, inv_mul_cancel₀ hpos.ne', one_smul]

/-- a component that is uncorrelated with the others is fused to a convex combination -/
theorem fused_component [NeZero n] {P Q : Matrix (Fin n) (Fin n) ℝ} (hP : P.PosDef) (hQ : Q.PosDef)
    {k : Fin n} (hPk : ∀ j, j ≠ k → P k j = 0) (hQk : ∀ j, j ≠ k → Q k j = 0)
    (m₁ m₂ : Fin n → ℝ) : ∃ s, 0 < s ∧ s < 1 ∧
      ((fuseInfo P Q)⁻¹ *ᵥ (fuseWeight P Q • (P⁻¹ *ᵥ m₁) + (1 - fuseWeight P Q) • (Q⁻¹ *ᵥ m₂))) k
        = s * m₁ k + (1 - s) * m₂ k := by
  obtain ⟨hp, hP'⟩ := inv_row_of_decoupled hP hPk
  obtain ⟨hq, hQ'⟩ := inv_row_of_decoupled hQ hQk
  obtain ⟨-, w0, w1⟩ := fuseWeight_spec hP hQ
  set w := fuseWeight P Q with hw
  set r := w • (P⁻¹ *ᵥ m₁) + (1 - w) • (Q⁻¹ *ᵥ m₂) with hr
  have hu := PosDef.isUnit_det (fuseInfo_posDef hP hQ)
  set z := (fuseInfo P Q)⁻¹ *ᵥ r with hz
  have e1 : fuseInfo P Q *ᵥ z = r := by
    rw [hz, mulVec_mulVec, mul_nonsing_inv _ hu, one_mulVec]
  have e2 := congrFun e1 k
  have hrow : (fuseInfo P Q *ᵥ z) k = (w * (P k k)⁻¹ + (1 - w) * (Q k k)⁻¹) * z k := by
    show (fuseInfo P Q k) ⬝ᵥ z = _
    have : fuseInfo P Q k = w • P⁻¹ k + (1 - w) • Q⁻¹ k := rfl
    rw [this, hP', hQ', smul_smul, smul_smul, ← add_smul, smul_dotProduct, single_one_dotProduct,
      smul_eq_mul]
  have hrk : r k = w * ((P k k)⁻¹ * m₁ k) + (1 - w) * ((Q k k)⁻¹ * m₂ k) := by
    rw [hr]
    show w * (P⁻¹ k ⬝ᵥ m₁) + (1 - w) * (Q⁻¹ k ⬝ᵥ m₂) = _
    rw [hP', hQ', smul_dotProduct, smul_dotProduct, single_one_dotProduct, single_one_dotProduct,
      smul_eq_mul, smul_eq_mul]
  rw [hrow, hrk] at e2
  have ha : 0 < w * (P k k)⁻¹ := mul_pos w0 (inv_pos.2 hp)
  have hb : 0 < (1 - w) * (Q k k)⁻¹ := mul_pos (by linarith) (inv_pos.2 hq)
  refine ⟨w * (P k k)⁻¹ / (w * (P k k)⁻¹ + (1 - w) * (Q k k)⁻¹), by positivity, ?_, ?_⟩
  · rw [div_lt_one (by positivity)]; linarith
  · have hab : w * (P k k)⁻¹ + (1 - w) * (Q k k)⁻¹ ≠ 0 := by positivity
    have : z k = (w * ((P k k)⁻¹ * m₁ k) + (1 - w) * ((Q k k)⁻¹ * m₂ k)) /
        (w * (P k k)⁻¹ + (1 - w) * (Q k k)⁻¹) := by
      rw [eq_div_iff hab, mul_comm]; exact e2
    rw [this, div_mul_eq_mul_div, one_sub_div hab, div_mul_eq_mul_div, ← add_div]
    congr 1
    ring

/-! ## Consistency -/

theorem dot_transpose (X : Matrix (Fin n) (Fin n) ℝ) (x y : Fin n → ℝ) :
    y ⬝ᵥ (Xᵀ *ᵥ x) = x ⬝ᵥ (X *ᵥ y) := by
  rw [mulVec_transpose, dotProduct_comm, dotProduct_mulVec]

/-- quadratic form of the joint error covariance -/
theorem fromBlocks_quad {S₁ S₂ X : Matrix (Fin n) (Fin n) ℝ}
    (h : (fromBlocks S₁ X Xᵀ S₂).PosSemidef) (x y : Fin n → ℝ) :
    0 ≤ x ⬝ᵥ (S₁ *ᵥ x) + 2 * (x ⬝ᵥ (X *ᵥ y)) + y ⬝ᵥ (S₂ *ᵥ y) := by
  have := quad_nonneg h (Sum.elim x y)
  rw [fromBlocks_mulVec, sumElim_dotProduct_sumElim] at this
  simp only [Sum.elim_comp_inl, Sum.elim_comp_inr, dotProduct_add] at this
  have hx : y ⬝ᵥ (Xᵀ *ᵥ x) = x ⬝ᵥ (X *ᵥ y) := by
    rw [mulVec_transpose, dotProduct_comm, dotProduct_mulVec]
  rw [hx] at this
  linarith

/-- consistency of covariance intersection for every weight -/
theorem consistency {P Q : Matrix (Fin n) (Fin n) ℝ} (hP : P.PosDef) (hQ : Q.PosDef) {w : ℝ}
    (h0 : 0 < w) (h1 : w < 1) {S₁ S₂ X : Matrix (Fin n) (Fin n) ℝ}
    (hS : (fromBlocks S₁ X Xᵀ S₂).PosSemidef) (hSP : (P - S₁).PosSemidef) (hSQ : (Q - S₂).PosSemidef)
    {C K L : Matrix (Fin n) (Fin n) ℝ} (hC : C = (w • P⁻¹ + (1 - w) • Q⁻¹)⁻¹)
    (hK : K = C * (w • P⁻¹)) (hL : L = C * ((1 - w) • Q⁻¹)) :
    (C - (K * S₁ * Kᵀ + K * X * Lᵀ + L * Xᵀ * Kᵀ + L * S₂ * Lᵀ)).PosSemidef := by
  have hA := combined_posDef hP.inv hQ.inv h0 h1
  have hCp : C.PosDef := hC ▸ hA.inv
  have hCt : Cᵀ = C := by
    have := hCp.isHermitian.eq
    rwa [conjTranspose_eq_transpose_of_trivial] at this
  have hPt : (P⁻¹)ᵀ = P⁻¹ := by
    have := hP.inv.isHermitian.eq
    rwa [conjTranspose_eq_transpose_of_trivial] at this
  have hQt : (Q⁻¹)ᵀ = Q⁻¹ := by
    have := hQ.inv.isHermitian.eq
    rwa [conjTranspose_eq_transpose_of_trivial] at this
  have hS1t : S₁ᵀ = S₁ := by
    have h := hSP.isHermitian.eq
    have hp := hP.isHermitian.eq
    rw [conjTranspose_eq_transpose_of_trivial] at h hp
    rw [transpose_sub, hp] at h
    exact sub_right_injective h
  have hS2t : S₂ᵀ = S₂ := by
    have h := hSQ.isHermitian.eq
    have hp := hQ.isHermitian.eq
    rw [conjTranspose_eq_transpose_of_trivial] at h hp
    rw [transpose_sub, hp] at h
    exact sub_right_injective h
  refine PosSemidef.of_dotProduct_mulVec_nonneg ?_ ?_
  · show _ᴴ = _
    rw [conjTranspose_eq_transpose_of_trivial]
    simp only [transpose_sub, transpose_add, transpose_mul, transpose_transpose, hCt, hS1t, hS2t]
    congr 1
    simp only [mul_assoc]
    abel
  · intro v
    rw [star_trivial, sub_mulVec, dotProduct_sub, sub_nonneg]
    set x := P⁻¹ *ᵥ (C *ᵥ v) with hx
    set y := Q⁻¹ *ᵥ (C *ᵥ v) with hy
    have hKv : Kᵀ *ᵥ v = w • x := by
      rw [hK, transpose_mul, transpose_smul, hPt, hCt, hx, ← mulVec_mulVec, smul_mulVec]
    have hLv : Lᵀ *ᵥ v = (1 - w) • y := by
      rw [hL, transpose_mul, transpose_smul, hQt, hCt, hy, ← mulVec_mulVec, smul_mulVec]
    have form : ∀ (M N R : Matrix (Fin n) (Fin n) ℝ), v ⬝ᵥ ((M * R * Nᵀ) *ᵥ v) =
        (Mᵀ *ᵥ v) ⬝ᵥ (R *ᵥ (Nᵀ *ᵥ v)) := by
      intro M N R
      rw [mul_assoc, ← mulVec_mulVec, ← mulVec_mulVec, dotProduct_mulVec, ← mulVec_transpose]
    have hq : v ⬝ᵥ ((K * S₁ * Kᵀ + K * X * Lᵀ + L * Xᵀ * Kᵀ + L * S₂ * Lᵀ) *ᵥ v) =
        w ^ 2 * (x ⬝ᵥ (S₁ *ᵥ x)) + 2 * (w * (1 - w)) * (x ⬝ᵥ (X *ᵥ y))
          + (1 - w) ^ 2 * (y ⬝ᵥ (S₂ *ᵥ y)) := by
      have hxy := dot_transpose X x y
      rw [add_mulVec, add_mulVec, add_mulVec, dotProduct_add, dotProduct_add, dotProduct_add,
        form, form, form, form, hKv, hLv]
      simp only [mulVec_smul, smul_dotProduct, dotProduct_smul, smul_eq_mul, hxy]
      ring
    rw [hq]
    have j := fromBlocks_quad hS x (-y)
    rw [mulVec_neg, dotProduct_neg, mulVec_neg, dotProduct_neg, neg_dotProduct, neg_neg] at j
    have p1 : x ⬝ᵥ (S₁ *ᵥ x) ≤ x ⬝ᵥ (P *ᵥ x) := by
      have := quad_nonneg hSP x
      rw [sub_mulVec, dotProduct_sub] at this
      linarith
    have p2 : y ⬝ᵥ (S₂ *ᵥ y) ≤ y ⬝ᵥ (Q *ᵥ y) := by
      have := quad_nonneg hSQ y
      rw [sub_mulVec, dotProduct_sub] at this
      linarith
    have hPx : P *ᵥ x = C *ᵥ v := by
      rw [hx, mulVec_mulVec, mul_nonsing_inv _ (PosDef.isUnit_det hP), one_mulVec]
    have hQy : Q *ᵥ y = C *ᵥ v := by
      rw [hy, mulVec_mulVec, mul_nonsing_inv _ (PosDef.isUnit_det hQ), one_mulVec]
    have hfin : w * (x ⬝ᵥ (P *ᵥ x)) + (1 - w) * (y ⬝ᵥ (Q *ᵥ y)) = v ⬝ᵥ (C *ᵥ v) := by
      rw [hPx, hQy]
      have hinv : (w • P⁻¹ + (1 - w) • Q⁻¹) *ᵥ (C *ᵥ v) = v := by
        rw [hC, mulVec_mulVec, mul_nonsing_inv _ (PosDef.isUnit_det hA), one_mulVec]
      rw [add_mulVec, smul_mulVec, smul_mulVec, ← hx, ← hy] at hinv
      conv_rhs => rw [← hinv]
      rw [add_dotProduct, smul_dotProduct, smul_dotProduct, smul_eq_mul, smul_eq_mul]
      rw [hinv]
    have hw : 0 ≤ w * (1 - w) := mul_nonneg h0.le (by linarith)
    nlinarith [mul_nonneg hw j, mul_le_mul_of_nonneg_left p1 h0.le,
      mul_le_mul_of_nonneg_left p2 (by linarith : (0 : ℝ) ≤ 1 - w)]

end Mot

namespace Mot

section Loop
variable {τ δ : Type}

theorem fuseList_ok (visitor : τ → δ → Outcome τ) (l : List (τ × δ)) (acc out : List τ) :
    fuseList visitor l acc = .ok out ↔
      ∃ fs, List.Forall₂ (fun p x => visitor p.1 p.2 = .ok x) l fs ∧ out = acc ++ fs := by
  induction l generalizing acc with
  | nil =>
    simp only [fuseList, Outcome.ok.injEq, List.forall₂_nil_left_iff]
    constructor
    · rintro rfl; exact ⟨[], rfl, by simp⟩
    · rintro ⟨fs, rfl, rfl⟩; simp
  | cons p l ih =>
    obtain ⟨t, d⟩ := p
    simp only [fuseList]
    cases h : visitor t d with
    | ok f =>
      simp only [ih, List.forall₂_cons_left_iff, h]
      constructor
      · rintro ⟨fs, h1, rfl⟩
        exact ⟨f :: fs, ⟨f, fs, rfl, h1, rfl⟩, by simp⟩
      · rintro ⟨_, ⟨g, fs, h0, h1, rfl⟩, rfl⟩
        cases h0
        exact ⟨fs, h1, by simp⟩
    | throw e =>
      simp only [List.forall₂_cons_left_iff, h]
      constructor
      · rintro ⟨⟩
      · rintro ⟨_, ⟨g, fs, h0, h1, rfl⟩, rfl⟩; cases h0
    | ub e =>
      simp only [List.forall₂_cons_left_iff, h]
      constructor
      · rintro ⟨⟩
      · rintro ⟨_, ⟨g, fs, h0, h1, rfl⟩, rfl⟩; cases h0

theorem fuseList_fail (visitor : τ → δ → Outcome τ) (l : List (τ × δ)) (acc : List τ)
    (o : Outcome (List τ)) (h : fuseList visitor l acc = o) (hne : ∀ out, o ≠ .ok out) :
    ∃ pre p post, l = pre ++ p :: post ∧ (∀ q ∈ pre, ∃ x, visitor q.1 q.2 = .ok x) ∧
      ((∃ e, visitor p.1 p.2 = .throw e ∧ o = .throw e) ∨
        ∃ w, visitor p.1 p.2 = .ub w ∧ o = .ub w) := by
  induction l generalizing acc with
  | nil => exact absurd h.symm (hne _)
  | cons p l ih =>
    obtain ⟨t, d⟩ := p
    simp only [fuseList] at h
    cases hv : visitor t d with
    | ok f =>
      simp only [hv] at h
      obtain ⟨pre, p, post, rfl, h1, h2⟩ := ih _ h
      refine ⟨(t, d) :: pre, p, post, rfl, ?_, h2⟩
      intro q hq
      rcases List.mem_cons.1 hq with rfl | hq
      · exact ⟨f, hv⟩
      · exact h1 q hq
    | throw e =>
      simp only [hv] at h
      exact ⟨[], (t, d), l, rfl, by simp, .inl ⟨e, hv, h.symm⟩⟩
    | ub e =>
      simp only [hv] at h
      exact ⟨[], (t, d), l, rfl, by simp, .inr ⟨e, hv, h.symm⟩⟩

theorem filter_unique {α : Type} (f : α → Uuid) (l : List α) (hl : (l.map f).Nodup) (u : Uuid) :
    (l.filter (fun t => f t = u) = [] ∧ ¬ ∃ t ∈ l, f t = u) ∨
      ∃ t ∈ l, f t = u ∧ l.filter (fun t => f t = u) = [t] := by
  induction l with
  | nil => left; simp
  | cons x l ih =>
    rw [List.map_cons, List.nodup_cons] at hl
    by_cases h : f x = u
    · right
      refine ⟨x, by simp, h, ?_⟩
      rw [List.filter_cons_of_pos (by simpa using h)]
      congr 1
      rw [List.filter_eq_nil_iff]
      intro y hy
      simp only [decide_eq_true_eq]
      rintro rfl
      exact hl.1 (h ▸ List.mem_map_of_mem hy)
    · rw [List.filter_cons_of_neg (by simpa using h)]
      rcases ih hl.2 with ⟨h1, h2⟩ | ⟨t, h1, h2, h3⟩
      · left
        refine ⟨h1, ?_⟩
        rintro ⟨t, ht, he⟩
        rcases List.mem_cons.1 ht with rfl | ht
        · exact h he
        · exact h2 ⟨t, ht, he⟩
      · exact .inr ⟨t, List.mem_cons_of_mem _ h1, h2, h3⟩

end Loop

/-! ## Headings -/

/-- the part of `rotateYaw` that concerns the heading -/
noncomputable def rotateHeading (x : ℝ) : ℝ := if x > yawCut then x - 2 * yawCut else x

theorem rotateYaw_heading {n : ℕ} (m : Fin n → ℝ) (k : Fin n) (hk : k.1 = 3) :
    rotateYaw m k = rotateHeading (m k) := by
  simp only [rotateYaw, rotateHeading, hk, true_and]

theorem heading_low {a b s : ℝ} (ha : 0 ≤ a ∧ a < 2 * Real.pi) (hb : 0 ≤ b ∧ b < 2 * Real.pi)
    (h0 : 0 < s) (h1 : s < 1) (hac : a ≤ yawCut) (hbc : b ≤ yawCut) :
    (Angle.ofRad (s * rotateHeading a + (1 - s) * rotateHeading b)).getAngle = s * a + (1 - s) * b := by
  unfold rotateHeading
  rw [if_neg (not_lt.2 hac), if_neg (not_lt.2 hbc)]
  apply Angle.getAngle_ofRad_of_range
  constructor
  · nlinarith
  · nlinarith

theorem heading_high {a b s : ℝ} (ha : 0 ≤ a ∧ a < 2 * Real.pi) (hb : 0 ≤ b ∧ b < 2 * Real.pi)
    (h0 : 0 < s) (h1 : s < 1) (hac : yawCut < a) (hbc : yawCut < b) :
    (Angle.ofRad (s * rotateHeading a + (1 - s) * rotateHeading b)).getAngle
      = s * a + (1 - s) * b - 2 * (yawCut - Real.pi) := by
  obtain ⟨c1, c2⟩ := yawCut_bounds
  have hpi := Real.pi_gt_three
  unfold rotateHeading
  rw [if_pos hac, if_pos hbc]
  have hx : (Angle.ofRad (s * (a - 2 * yawCut) + (1 - s) * (b - 2 * yawCut))) =
      Angle.ofRad (s * a + (1 - s) * b - 2 * (yawCut - Real.pi)) := by
    rw [Angle.ofRad_eq_iff]
    refine ⟨-1, ?_⟩
    push_cast
    ring
  rw [hx]
  apply Angle.getAngle_ofRad_of_range
  have e1 : yawCut < s * a + (1 - s) * b := by nlinarith
  have e2 : s * a + (1 - s) * b < 2 * Real.pi := by nlinarith
  constructor
  · norm_num at c2; linarith
  · linarith

end Mot
