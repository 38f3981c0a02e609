import Verif.Proofs.Doubling
import Verif.Proofs.Ukf
import Verif.Props.Fusing
import Verif.Spec.Doubling
import Verif.Spec.Converge
/-!
# Uncertainty and error of fused tracks (C107, C108)

In exact real arithmetic.
-/

namespace Mot.Props

open Mot Spec Matrix

/-! ## C107 -/

section
variable {S : Type} {n : ℕ} [NeZero n] [MotionModel S n]

/-- C107: the fused track is at most twice as uncertain as the track was, and at most twice as
uncertain as the detection, in every direction of the state space. -/
theorem C107_twice (t d : DynObj S (Matrix (Fin n) (Fin n) ℝ)) (ht : t.covariance.PosDef) (hd : d.covariance.PosDef) :
    ∃ f, fusePair t d = .ok f ∧ CovLE f.covariance ((2 : ℝ) • t.covariance) ∧
      CovLE f.covariance ((2 : ℝ) • d.covariance) :=
  ⟨_, fusePair_posDef t d ht hd, (fused_double ht hd).1, (fused_double ht hd).2⟩

/-- C107: every variance at most doubles. -/
theorem C107_variance (t d : DynObj S (Matrix (Fin n) (Fin n) ℝ)) (ht : t.covariance.PosDef)
    (hd : d.covariance.PosDef) : ∃ f, fusePair t d = .ok f ∧ ∀ i, 0 < f.covariance i i ∧
      f.covariance i i ≤ 2 * min (t.covariance i i) (d.covariance i i) := by
  obtain ⟨f, hf, h1, h2⟩ := C107_twice t d ht hd
  obtain ⟨f', -, hf', -, -, -, hp, -⟩ := C32_valid_covariance t d ht hd
  rw [hf] at hf'
  cases hf'
  refine ⟨f, hf, fun i => ⟨hp.diag_pos, ?_⟩⟩
  have key : ∀ X : Matrix (Fin n) (Fin n) ℝ, CovLE f.covariance ((2 : ℝ) • X) → f.covariance i i ≤ 2 * X i i := by
    intro X h
    have := quad_nonneg h (Pi.single i 1)
    rw [single_one_dotProduct, mulVec_single_one] at this
    have : 0 ≤ 2 * X i i - f.covariance i i := this
    linarith
  rw [mul_min_of_nonneg _ _ (by norm_num : (0 : ℝ) ≤ 2)]
  exact le_min (key _ h1) (key _ h2)

end

/-- C107: the same for `fuse_associations`: every track in the result is at most twice as uncertain
as the track and as the detection from which it comes. -/
theorem C107_fused_tracks (a : AssociationMap) (ts ds out : List MotObj) (ht : ∀ t ∈ ts, ValidCov t)
    (hd : ∀ d ∈ ds, ValidCov d) (h : fuseAssociations a ts ds ciVisitor = .ok out) :
    ∀ f ∈ out, ValidCov f ∧ ∃ t ∈ ts, ∃ d ∈ ds, ∃ us, a.find? (TrackOps.uuid t) = some us ∧
      TrackOps.uuid d ∈ us ∧ TrackOps.uuid f = TrackOps.uuid t ∧ CovAtMost 2 f t ∧ CovAtMost 2 f d := by
  intro f hf
  obtain ⟨t, htm, d, hdm, us, hus, hu, hv⟩ := (C29_mem a ts ds ciVisitor out h f).1 hf
  have hid := (C30_identity_and_time t d f hv).1
  have h1 := ht t htm
  have h2 := hd d hdm
  have main : ValidCov f ∧ CovAtMost 2 f t ∧ CovAtMost 2 f d := by
    match t, d, hv with
    | .inl t, .inl d, hv =>
      obtain ⟨g, hg, g1, g2⟩ := C107_twice t d h1 h2
      obtain ⟨g', -, hg', -, -, -, hp, -⟩ := C32_valid_covariance t d h1 h2
      rw [hg] at hg'
      cases hg'
      simp only [ciVisitor, hg] at hv
      cases hv
      exact ⟨hp, g1, g2⟩
    | .inr t, .inr d, hv =>
      obtain ⟨g, hg, g1, g2⟩ := C107_twice t d h1 h2
      obtain ⟨g', -, hg', -, -, -, hp, -⟩ := C32_valid_covariance t d h1 h2
      rw [hg] at hg'
      cases hg'
      simp only [ciVisitor, hg] at hv
      cases hv
      exact ⟨hp, g1, g2⟩
    | .inl _, .inr _, hv => cases hv
    | .inr _, .inl _, hv => cases hv
  exact ⟨main.1, t, htm, d, hdm, us, hus, hu, hid, main.2.1, main.2.2⟩

private noncomputable def stretched (n : ℕ) (e : ℝ) : Matrix (Fin (n + 2)) (Fin (n + 2)) ℝ :=
  diagonal (Fin.cons e⁻¹ (Fin.cons e fun _ => 1))

private theorem stretched_posDef (n : ℕ) {e : ℝ} (he : 0 < e) : (stretched n e).PosDef := by
  refine PosDef.diagonal fun i => ?_
  refine Fin.cases ?_ (fun i => Fin.cases ?_ (fun i => ?_) i) i
  · simpa using he
  · simpa using he
  · simp

private theorem stretched_inv (n : ℕ) {e : ℝ} (he : 0 < e) :
    (stretched n e)⁻¹ = diagonal (Fin.cons e (Fin.cons e⁻¹ fun _ => 1)) := by
  refine inv_eq_left_inv ?_
  unfold stretched
  rw [diagonal_mul_diagonal, ← diagonal_one]
  congr 1
  funext i
  refine Fin.cases ?_ (fun i => Fin.cases ?_ (fun i => ?_) i) i
  · simp [he.ne']
  · simp [he.ne']
  · simp

private theorem stretched_fused (n : ℕ) {e : ℝ} (he : 0 < e) :
    (fuseInfo (stretched n e) 1)⁻¹ 0 0 = 2 / (1 + e) := by
  have hP := stretched_posDef n he
  have hdet : ((stretched n e)⁻¹).det = 1 := by
    rw [stretched_inv n he, det_diagonal, Fin.prod_univ_succ, Fin.prod_univ_succ]
    simp [he.ne']
  have hw : fuseWeight (stretched n e) 1 = 1 / 2 := by
    have h1 := det_lt_det_add hP.inv (PosDef.one (n := Fin (n + 2)) (R := ℝ)).inv
    unfold fuseWeight
    rw [hdet] at h1 ⊢
    simp only [inv_one, det_one] at h1 ⊢
    rw [sub_add_cancel]
    have : ((stretched n e)⁻¹ + 1).det ≠ 0 := by linarith
    field_simp
  have hrow := inv_row_of_decoupled (fuseInfo_posDef hP PosDef.one) (k := 0) (fun j hj => by
    show fuseWeight _ _ * (stretched n e)⁻¹ 0 j + (1 - fuseWeight _ _) * (1 : Matrix (Fin (n + 2)) (Fin (n + 2)) ℝ)⁻¹ 0 j = 0
    rw [stretched_inv n he, inv_one, diagonal_apply_ne _ (Ne.symm hj), one_apply_ne (Ne.symm hj)]
    ring)
  have h00 : fuseInfo (stretched n e) 1 0 0 = (1 + e) / 2 := by
    show fuseWeight _ _ * (stretched n e)⁻¹ 0 0 + (1 - fuseWeight _ _) * (1 : Matrix (Fin (n + 2)) (Fin (n + 2)) ℝ)⁻¹ 0 0 = _
    rw [hw, stretched_inv n he, inv_one, diagonal_apply_eq, one_apply_eq]
    simp only [Fin.cons_zero]
    ring
  rw [hrow.2, h00]
  simp

/-- C107: no smaller factor would do, for either motion model: the variance of x may grow by any
factor below 2. -/
theorem C107_tight (c : ℝ) (hc : c < 2) :
    (∃ t d f : DynObj CtrvState CtrvCov, t.covariance.PosDef ∧ d.covariance.PosDef ∧ fusePair t d = .ok f ∧
      c * d.covariance 0 0 < f.covariance 0 0) ∧
    ∃ t d f : DynObj CtraState CtraCov, t.covariance.PosDef ∧ d.covariance.PosDef ∧ fusePair t d = .ok f ∧
      c * d.covariance 0 0 < f.covariance 0 0 := by
  obtain ⟨e, he, hce⟩ : ∃ e : ℝ, 0 < e ∧ c < 2 / (1 + e) := by
    refine ⟨(2 - c) / (2 + |c|), div_pos (by linarith) (by positivity), ?_⟩
    have ha : 0 < 2 + |c| := by positivity
    rw [lt_div_iff₀ (by have := div_pos (show 0 < 2 - c by linarith) ha; linarith)]
    rcases le_or_gt c 0 with h | h
    · have := div_pos (show 0 < 2 - c by linarith) ha
      nlinarith
    · rw [abs_of_pos h] at ha ⊢
      have e1 : 1 + (2 - c) / (2 + c) = 4 / (2 + c) := by field_simp; ring
      rw [e1, mul_div_assoc', div_lt_iff₀ ha]
      linarith
  constructor
  · refine ⟨⟨0, ⟨0, 0, 0, Angle.ofRad 0, 0⟩, stretched 3 e, ⟨[1]⟩, .unknown⟩,
      ⟨0, ⟨0, 0, 0, Angle.ofRad 0, 0⟩, 1, ⟨[2]⟩, .unknown⟩, _, stretched_posDef 3 he, PosDef.one,
      fusePair_posDef _ _ (stretched_posDef 3 he) PosDef.one, ?_⟩
    show c * (1 : CtrvCov) 0 0 < (fuseInfo (stretched 3 e) 1)⁻¹ 0 0
    rw [stretched_fused 3 he, one_apply_eq, mul_one]
    exact hce
  · refine ⟨⟨0, ⟨0, 0, 0, Angle.ofRad 0, 0, 0⟩, stretched 4 e, ⟨[1]⟩, .unknown⟩,
      ⟨0, ⟨0, 0, 0, Angle.ofRad 0, 0, 0⟩, 1, ⟨[2]⟩, .unknown⟩, _, stretched_posDef 4 he, PosDef.one,
      fusePair_posDef _ _ (stretched_posDef 4 he) PosDef.one, ?_⟩
    show c * (1 : CtraCov) 0 0 < (fuseInfo (stretched 4 e) 1)⁻¹ 0 0
    rw [stretched_fused 4 he, one_apply_eq, mul_one]
    exact hce

/-! ## C108 -/

/-- C108: with any weight, a point that is within `γ` (squared standard deviations) of both
estimates, in rotated headings, is within `γ` of their covariance intersection. -/
theorem C108_intersection {n : ℕ} [NeZero n] {P Q : Matrix (Fin n) (Fin n) ℝ} (hP : P.PosDef) (hQ : Q.PosDef) {w : ℝ}
    (h0 : 0 < w) (h1 : w < 1) (m₁ m₂ : Fin n → ℝ) : ∃ v C, covIntersection m₁ P⁻¹ m₂ Q⁻¹ w = some (v, C) ∧
      C.PosDef ∧ ∀ x, errorSq C v x ≤ w * errorSq P (rotateYaw m₁) x + (1 - w) * errorSq Q (rotateYaw m₂) x := by
  have hA := combined_posDef hP.inv hQ.inv h0 h1
  refine ⟨_, _, covIntersection_posDef hP.inv hQ.inv h0 h1 m₁ m₂, hA.inv, fun x => ?_⟩
  unfold errorSq
  rw [nonsing_inv_nonsing_inv _ (PosDef.isUnit_det hA)]
  refine fused_error hP hQ h0 h1 _ _ _ x ?_
  rw [mulVec_mulVec, mul_nonsing_inv _ (PosDef.isUnit_det hA), one_mulVec]

private theorem fused_truth {S : Type} {n : ℕ} [NeZero n] [MotionModel S n] [MotionLaws S n]
    (t d : DynObj S (Matrix (Fin n) (Fin n) ℝ)) (ht : t.covariance.PosDef) (hd : d.covariance.PosDef) :
    ∃ f v, fusePair t d = .ok f ∧ SameUpToTurns (MotionModel.toVec f.state) v ∧
      ∀ x γ, errorSq t.covariance (rotateYaw (MotionModel.toVec t.state)) x ≤ γ →
        errorSq d.covariance (rotateYaw (MotionModel.toVec d.state)) x ≤ γ → errorSq f.covariance v x ≤ γ := by
  obtain ⟨-, h2, h3⟩ := fuseWeight_spec ht hd
  obtain ⟨v, C, hc, -, hx⟩ := C108_intersection ht hd h2 h3 (MotionModel.toVec t.state) (MotionModel.toVec d.state)
  rw [covIntersection_posDef ht.inv hd.inv h2 h3] at hc
  obtain ⟨rfl, rfl⟩ := Prod.mk.inj (Option.some.inj hc)
  refine ⟨_, _, fusePair_posDef t d ht hd, MotionLaws.toVec_ofVec _, fun x γ g1 g2 => ?_⟩
  refine (hx x).trans ?_
  nlinarith

/-- C108 (CTRV): if the truth is within `γ` (squared standard deviations) of the track and of the
detection, it is within `γ` of the fused track, however the errors are related.  Headings are
compared after the rotation that fusing applies; that of the fused track up to full turns. -/
theorem C108_fused_ctrv (t d : DynObj CtrvState CtrvCov) (ht : t.covariance.PosDef) (hd : d.covariance.PosDef) :
    ∃ f v, fusePair t d = .ok f ∧ SameUpToTurns f.state.toVec v ∧
      ∀ x γ, errorSq t.covariance (rotateYaw t.state.toVec) x ≤ γ →
        errorSq d.covariance (rotateYaw d.state.toVec) x ≤ γ → errorSq f.covariance v x ≤ γ :=
  fused_truth t d ht hd

/-- C108 (CTRA) -/
theorem C108_fused_ctra (t d : DynObj CtraState CtraCov) (ht : t.covariance.PosDef) (hd : d.covariance.PosDef) :
    ∃ f v, fusePair t d = .ok f ∧ SameUpToTurns f.state.toVec v ∧
      ∀ x γ, errorSq t.covariance (rotateYaw t.state.toVec) x ≤ γ →
        errorSq d.covariance (rotateYaw d.state.toVec) x ≤ γ → errorSq f.covariance v x ≤ γ :=
  fused_truth t d ht hd

/-- C108: the same for any number of detections of a truth that does not change, if headings stay at
or below the cut. -/
theorem C108_run {n : ℕ} [NeZero n] {z m : ℕ → Fin n → ℝ} {R C : ℕ → Matrix (Fin n) (Fin n) ℝ} (h : VectorRun z R m C)
    (hC : (C 0).PosDef) (hR : ∀ k, (R k).PosDef) (hz : ∀ k, ∀ i : Fin n, i.1 = 3 → z k i ≤ yawCut)
    (hm : ∀ k, ∀ i : Fin n, i.1 = 3 → m k i ≤ yawCut) (x : Fin n → ℝ) (γ : ℝ) (h0 : errorSq (C 0) (m 0) x ≤ γ)
    (hx : ∀ k, errorSq (R k) (z k) x ≤ γ) (k : ℕ) : (C k).PosDef ∧ errorSq (C k) (m k) x ≤ γ := by
  induction k with
  | zero => exact ⟨hC, h0⟩
  | succ k ih =>
    obtain ⟨w, hw, hs⟩ := h.step k
    obtain ⟨e1, h2, h3⟩ := fuseWeight_spec ih.1 (hR k)
    rw [e1] at hw
    obtain rfl := Option.some.inj hw
    obtain ⟨v, D, hc, hD, hv⟩ := C108_intersection ih.1 (hR k) h2 h3 (m k) (z k)
    rw [hs] at hc
    obtain ⟨rfl, rfl⟩ := Prod.mk.inj (Option.some.inj hc)
    have := hv x
    rw [rotateYaw_of_le (hm k), rotateYaw_of_le (hz k)] at this
    refine ⟨hD, this.trans ?_⟩
    have := hx k
    nlinarith [ih.2]

/-- hypotheses of C107 and C108: different covariances and states, and a truth near both -/
example : (sampleObj ⟨[1]⟩ 5 1 1).covariance.PosDef ∧ (sampleObj ⟨[2]⟩ 6 2 2).covariance.PosDef ∧
    errorSq (sampleObj ⟨[1]⟩ 5 1 1).covariance (rotateYaw (sampleObj ⟨[1]⟩ 5 1 1).state.toVec) ![6, 2, 3, 1, 1] ≤ 1 ∧
    errorSq (sampleObj ⟨[2]⟩ 6 2 2).covariance (rotateYaw (sampleObj ⟨[2]⟩ 6 2 2).state.toVec) ![6, 2, 3, 1, 1] ≤ 1 := by
  have hpi := Real.pi_gt_three
  have hcut := yawCut_bounds.1
  have e : ∀ (u : Uuid) (x y : ℝ) (P : CtrvCov), 0 ≤ y → y ≤ 3 →
      rotateYaw (sampleObj u x y P).state.toVec = ![x, 2, 3, y, 1] := by
    intro u x y P h0 h1
    have ha : (Angle.ofRad y).getAngle = y := Angle.getAngle_ofRad_of_range ⟨h0, by linarith⟩
    have hv : (sampleObj u x y P).state.toVec = ![x, 2, 3, y, 1] := by
      simp only [sampleObj, CtrvState.toVec, ha]
    rw [hv]
    refine rotateYaw_of_le fun i hi => ?_
    obtain rfl : i = 3 := Fin.ext hi
    show y ≤ yawCut
    linarith
  have h2 : (2 : CtrvCov)⁻¹ = (1 / 2 : ℝ) • 1 := by
    refine inv_eq_left_inv ?_
    have : (2 : CtrvCov) = (2 : ℝ) • 1 := by rw [two_smul, one_add_one_eq_two]
    rw [this, smul_mul_smul_comm, mul_one]
    norm_num
  refine ⟨PosDef.one, posDef_two, ?_, ?_⟩
  · rw [e _ _ _ _ (by norm_num) (by norm_num)]
    simp only [sampleObj, errorSq, inv_one, one_mulVec]
    simp [dotProduct, Fin.sum_univ_succ]
    norm_num
  · rw [e _ _ _ _ (by norm_num) (by norm_num)]
    simp only [sampleObj, errorSq, h2, smul_mulVec, one_mulVec]
    simp [dotProduct, Fin.sum_univ_succ]
    norm_num

end Mot.Props
