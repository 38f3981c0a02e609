import Verif.Proofs.Loewner
import Verif.Props.Fusing
import Verif.Props.Distance
import Verif.Props.Motion
/-!
# Properties about how certain results are (C82, C83)

In exact real arithmetic.
-/

namespace Mot.Props

open Mot Spec Matrix

section
variable {S : Type} {n : ℕ} [NeZero n] [MotionModel S n]

/-! ## C82 -/

/-- C82: in every direction the fused information (inverse covariance) lies between those of
the two estimates, and the fused variance is at most the larger one. -/
theorem C82_between (t d : DynObj S (Matrix (Fin n) (Fin n) ℝ)) (ht : t.covariance.PosDef)
    (hd : d.covariance.PosDef) : ∃ f, fusePair t d = .ok f ∧ ∀ v : Fin n → ℝ,
      min (v ⬝ᵥ (t.covariance⁻¹ *ᵥ v)) (v ⬝ᵥ (d.covariance⁻¹ *ᵥ v)) ≤ v ⬝ᵥ (f.covariance⁻¹ *ᵥ v) ∧
      v ⬝ᵥ (f.covariance⁻¹ *ᵥ v) ≤ max (v ⬝ᵥ (t.covariance⁻¹ *ᵥ v)) (v ⬝ᵥ (d.covariance⁻¹ *ᵥ v)) ∧
      v ⬝ᵥ (f.covariance *ᵥ v) ≤ max (v ⬝ᵥ (t.covariance *ᵥ v)) (v ⬝ᵥ (d.covariance *ᵥ v)) := by
  obtain ⟨-, h0, h1⟩ := fuseWeight_spec ht hd
  have hI := fuseInfo_posDef ht hd
  refine ⟨_, fusePair_posDef t d ht hd, fun v => ?_⟩
  simp only
  rw [nonsing_inv_nonsing_inv _ (PosDef.isUnit_det hI)]
  have e : v ⬝ᵥ (fuseInfo t.covariance d.covariance *ᵥ v) = _ := quad_combination _ _ _ v
  have hc := inv_quad_convex ht.inv hd.inv h0.le h1.le hI v
  rw [nonsing_inv_nonsing_inv _ (PosDef.isUnit_det ht),
    nonsing_inv_nonsing_inv _ (PosDef.isUnit_det hd)] at hc
  change v ⬝ᵥ ((fuseInfo t.covariance d.covariance)⁻¹ *ᵥ v) ≤ _ at hc
  set w := fuseWeight t.covariance d.covariance
  have key : ∀ a b : ℝ, min a b ≤ w * a + (1 - w) * b ∧ w * a + (1 - w) * b ≤ max a b := by
    intro a b
    rcases le_total a b with h | h
    · rw [min_eq_left h, max_eq_right h]
      constructor <;> nlinarith
    · rw [min_eq_right h, max_eq_left h]
      constructor <;> nlinarith
  exact ⟨e ▸ (key _ _).1, e ▸ (key _ _).2, hc.trans (key _ _).2⟩

/-- C82: the result never claims more certainty than adding up the information of two
independent estimates would give. -/
theorem C82_not_overconfident (t d : DynObj S (Matrix (Fin n) (Fin n) ℝ)) (ht : t.covariance.PosDef)
    (hd : d.covariance.PosDef) : ∃ f, fusePair t d = .ok f ∧
      CovLE (t.covariance⁻¹ + d.covariance⁻¹)⁻¹ f.covariance := by
  obtain ⟨-, h0, h1⟩ := fuseWeight_spec ht hd
  have hI := fuseInfo_posDef ht hd
  refine ⟨_, fusePair_posDef t d ht hd, covLE_inv hI (ht.inv.add hd.inv) ?_⟩
  refine (covLE_iff hI.isHermitian (ht.inv.add hd.inv).isHermitian).2 fun x => ?_
  have e : x ⬝ᵥ (fuseInfo t.covariance d.covariance *ᵥ x) = _ := quad_combination _ _ _ x
  rw [e, add_mulVec, dotProduct_add]
  have h2 := quad_nonneg ht.inv.posSemidef x
  have h3 := quad_nonneg hd.inv.posSemidef x
  nlinarith

/-- C82: if one estimate is at least as certain as the other in every direction, the result lies
between them; fusing does not make it more certain than the better one. -/
theorem C82_dominated (t d : DynObj S (Matrix (Fin n) (Fin n) ℝ)) (ht : t.covariance.PosDef)
    (hd : d.covariance.PosDef) (h : CovLE t.covariance d.covariance) :
    ∃ f g, fusePair t d = .ok f ∧ fusePair d t = .ok g ∧
      CovLE t.covariance f.covariance ∧ CovLE f.covariance d.covariance ∧
      CovLE t.covariance g.covariance ∧ CovLE g.covariance d.covariance := by
  obtain ⟨f, g, hf, hg, -, hc⟩ := C34_symmetric t d ht hd
  obtain ⟨f', hf', hb⟩ := C82_between t d ht hd
  obtain ⟨f'', -, hf'', -, -, -, hpd, -⟩ := C32_valid_covariance t d ht hd
  rw [hf] at hf' hf''
  cases hf'
  cases hf''
  have hq := (covLE_iff ht.isHermitian hd.isHermitian).1 h
  have hqi := inv_quad_le ht hd hq
  have h2 : CovLE f.covariance d.covariance :=
    (covLE_iff hpd.isHermitian hd.isHermitian).2 fun x => by
      have := (hb x).2.2
      rwa [max_eq_right (hq x)] at this
  have h1 : CovLE t.covariance f.covariance := by
    have hi : CovLE f.covariance⁻¹ t.covariance⁻¹ :=
      (covLE_iff hpd.inv.isHermitian ht.inv.isHermitian).2 fun x => by
        have := (hb x).2.1
        rwa [max_eq_left (hqi x)] at this
    have := covLE_inv hpd.inv ht.inv hi
    rwa [nonsing_inv_nonsing_inv _ (PosDef.isUnit_det ht),
      nonsing_inv_nonsing_inv _ (PosDef.isUnit_det hpd)] at this
  exact ⟨f, g, hf, hg, h1, h2, hc ▸ h1, hc ▸ h2⟩

/-- C82: estimates of the same state, however certain, fuse to that state (its vector, after the
yaw adjustment). -/
theorem C82_same_vector (t d : DynObj S (Matrix (Fin n) (Fin n) ℝ)) (ht : t.covariance.PosDef)
    (hd : d.covariance.PosDef) (hs : MotionModel.toVec d.state = MotionModel.toVec t.state) :
    ∃ f, fusePair t d = .ok f ∧ f.state = MotionModel.ofVec (rotateYaw (MotionModel.toVec t.state)) := by
  refine ⟨_, fusePair_posDef t d ht hd, ?_⟩
  simp only [hs]
  rw [fused_mean_same ht hd]

end

/-- C82: the same for CTRV and CTRA states with valid headings up to 3.14159265359 -/
theorem C82_same_state :
    (∀ (t d : DynObj CtrvState CtrvCov), t.covariance.PosDef → d.covariance.PosDef →
      d.state = t.state → t.state.yaw.Valid → t.state.yaw.getAngle ≤ yawCut →
      ∃ f, fusePair t d = .ok f ∧ f.state = t.state) ∧
    ∀ (t d : DynObj CtraState CtraCov), t.covariance.PosDef → d.covariance.PosDef →
      d.state = t.state → t.state.yaw.Valid → t.state.yaw.getAngle ≤ yawCut →
      ∃ f, fusePair t d = .ok f ∧ f.state = t.state := by
  constructor
  · intro t d ht hd hs hv hc
    obtain ⟨f, hf, he⟩ := C82_same_vector t d ht hd (by rw [hs])
    refine ⟨f, hf, he.trans ?_⟩
    rw [rotateYaw_of_le (fun i hi => by
      obtain rfl : i = 3 := Fin.ext hi
      exact hc)]
    show CtrvState.ofVec t.state.toVec = t.state
    exact (C54_ctrv_vector t.state hv 0).1
  · intro t d ht hd hs hv hc
    obtain ⟨f, hf, he⟩ := C82_same_vector t d ht hd (by rw [hs])
    refine ⟨f, hf, he.trans ?_⟩
    rw [rotateYaw_of_le (fun i hi => by
      obtain rfl : i = 3 := Fin.ext hi
      exact hc)]
    show CtraState.ofVec t.state.toVec = t.state
    exact (C54_ctra_vector t.state hv 0).1

/-! ## C83 -/

theorem poseMahalanobis_mono {P Q : Matrix (Fin 3) (Fin 3) ℝ} (hP : P.PosDef) (hQ : Q.PosDef)
    (h : CovLE P Q) (p q : Fin 3 → ℝ) :
    ∃ d e, poseMahalanobis P p q = some d ∧ poseMahalanobis Q p q = some e ∧ e ≤ d := by
  refine ⟨_, _, poseMahalanobis_eq hP p q, poseMahalanobis_eq hQ p q, Real.sqrt_le_sqrt ?_⟩
  exact inv_quad_le hP hQ ((covLE_iff hP.isHermitian hQ.isHermitian).1 h) _

theorem poseBlock_covLE {n : ℕ} {P Q : Matrix (Fin (n + 4)) (Fin (n + 4)) ℝ} (h : CovLE P Q) :
    CovLE (poseBlock P) (poseBlock Q) := by
  unfold CovLE
  have : poseBlock Q - poseBlock P = (Q - P).submatrix ![0, 1, 3] ![0, 1, 3] := rfl
  rw [this]
  exact PosSemidef.submatrix h _

/-- C83 (CTRV): a track that is less certain in every direction gives every detection a
Mahalanobis score that is no larger, so a gate that accepts scores up to a limit accepts more. -/
theorem C83_ctrv_monotone (m q : CtrvState) {P Q : CtrvCov} (hP : P.PosDef) (hQ : Q.PosDef)
    (h : CovLE P Q) : ∃ d e, m.mahalanobis P q = some d ∧ m.mahalanobis Q q = some e ∧ e ≤ d := by
  unfold CtrvState.mahalanobis
  rw [ctrvPose_eq, ctrvPose_eq]
  exact poseMahalanobis_mono (poseBlock_posDef (n := 1) hP) (poseBlock_posDef (n := 1) hQ)
    (poseBlock_covLE (n := 1) h) _ _

/-- C83 (CTRA) -/
theorem C83_ctra_monotone (m q : CtraState) {P Q : CtraCov} (hP : P.PosDef) (hQ : Q.PosDef)
    (h : CovLE P Q) : ∃ d e, m.mahalanobis P q = some d ∧ m.mahalanobis Q q = some e ∧ e ≤ d := by
  unfold CtraState.mahalanobis
  rw [ctraPose_eq, ctraPose_eq]
  exact poseMahalanobis_mono (poseBlock_posDef (n := 2) hP) (poseBlock_posDef (n := 2) hQ)
    (poseBlock_covLE (n := 2) h) _ _

/-- C83: if the standard deviation in every direction lies between `√a` and `√b`, the Mahalanobis
score lies between the Euclidean score divided by `√b` and by `√a`. -/
theorem C83_bounds {a b : ℝ} (ha : 0 < a) (hb : 0 < b) :
    (∀ (m q : CtrvState) (P : CtrvCov), P.PosDef → CovLE (a • 1) P → CovLE P (b • 1) →
      ∃ d, m.mahalanobis P q = some d ∧ m.euclid q / √b ≤ d ∧ d ≤ m.euclid q / √a) ∧
    ∀ (m q : CtraState) (P : CtraCov), P.PosDef → CovLE (a • 1) P → CovLE P (b • 1) →
      ∃ d, m.mahalanobis P q = some d ∧ m.euclid q / √b ≤ d ∧ d ≤ m.euclid q / √a := by
  constructor
  · intro m q P hP h1 h2
    have key : ∀ {c : ℝ}, 0 < c → m.mahalanobis (c • (1 : CtrvCov)) q = some (m.euclid q / √c) := by
      intro c hc
      have h := (C57_identity m q ⟨0, 0, 0, Angle.ofRad 0, 0, 0⟩ ⟨0, 0, 0, Angle.ofRad 0, 0, 0⟩).1
      unfold CtrvState.mahalanobis at h ⊢
      rw [ctrvPose_eq] at h ⊢
      obtain ⟨d, -, -, g1, -, -, -, -, -, -, g2⟩ := poseMahalanobis_facts
        (poseBlock_posDef (n := 1) (PosDef.one : (1 : CtrvCov).PosDef)) m.pose q.pose q.pose
      rw [g1, Option.some.injEq] at h
      subst h
      exact g2 c hc
    obtain ⟨d, e, e1, e2, h3⟩ := C83_ctrv_monotone m q (PosDef.one.smul ha) hP h1
    obtain ⟨d', e', e1', e2', h3'⟩ := C83_ctrv_monotone m q hP (PosDef.one.smul hb) h2
    rw [key ha, Option.some.injEq] at e1
    rw [key hb, Option.some.injEq] at e2'
    rw [e2, Option.some.injEq] at e1'
    subst e1 e2' e1'
    exact ⟨e, e2, h3', h3⟩
  · intro m q P hP h1 h2
    have key : ∀ {c : ℝ}, 0 < c → m.mahalanobis (c • (1 : CtraCov)) q = some (m.euclid q / √c) := by
      intro c hc
      have h := (C57_identity ⟨0, 0, 0, Angle.ofRad 0, 0⟩ ⟨0, 0, 0, Angle.ofRad 0, 0⟩ m q).2
      unfold CtraState.mahalanobis at h ⊢
      rw [ctraPose_eq] at h ⊢
      obtain ⟨d, -, -, g1, -, -, -, -, -, -, g2⟩ := poseMahalanobis_facts
        (poseBlock_posDef (n := 2) (PosDef.one : (1 : CtraCov).PosDef)) m.pose q.pose q.pose
      rw [g1, Option.some.injEq] at h
      subst h
      exact g2 c hc
    obtain ⟨d, e, e1, e2, h3⟩ := C83_ctra_monotone m q (PosDef.one.smul ha) hP h1
    obtain ⟨d', e', e1', e2', h3'⟩ := C83_ctra_monotone m q hP (PosDef.one.smul hb) h2
    rw [key ha, Option.some.injEq] at e1
    rw [key hb, Option.some.injEq] at e2'
    rw [e2, Option.some.injEq] at e1'
    subst e1 e2' e1'
    exact ⟨e, e2, h3', h3⟩

theorem covLE_one_two : CovLE (1 : CtrvCov) 2 := by
  unfold CovLE
  rw [show (2 : CtrvCov) - 1 = 1 by rw [← one_add_one_eq_two, add_sub_cancel_right]]
  exact PosSemidef.one

/-- hypotheses of C82 and C83 -/
example : (sampleObj ⟨[1]⟩ 5 1 1).covariance.PosDef ∧ (sampleObj ⟨[2]⟩ 5 1 2).covariance.PosDef ∧
    CovLE (sampleObj ⟨[1]⟩ 5 1 1).covariance (sampleObj ⟨[2]⟩ 5 1 2).covariance ∧
    (sampleObj ⟨[1]⟩ 5 1 1).state = (sampleObj ⟨[2]⟩ 5 1 2).state ∧
    CovLE ((1 : ℝ) • (1 : CtrvCov)) 2 ∧ CovLE (2 : CtrvCov) ((2 : ℝ) • 1) := by
  refine ⟨PosDef.one, posDef_two, covLE_one_two, by simp only [sampleObj], ?_, ?_⟩
  · rw [one_smul]; exact covLE_one_two
  · unfold CovLE
    rw [two_smul, one_add_one_eq_two, sub_self]
    exact PosSemidef.zero

end Mot.Props
