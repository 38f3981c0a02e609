import Verif.Proofs.Compromise
import Verif.Proofs.ConvergeHeading
import Verif.Props.Doubling
/-!
# Where the fused state lies (C109)

In exact real arithmetic.
-/

namespace Mot.Props

open Mot Spec Matrix

section
variable {S : Type} {n : ℕ} [NeZero n] [MotionModel S n] [MotionLaws S n]

/-- C109 (a): the fused state is the best compromise: with the weight that fusing uses, every other
point disagrees more with track and detection; by how much is told by the distance from the fused
state in its own standard deviations. -/
theorem C109_compromise (t d : DynObj S (Matrix (Fin n) (Fin n) ℝ)) (ht : t.covariance.PosDef) (hd : d.covariance.PosDef) :
    ∃ f v w, fusePair t d = .ok f ∧ generateWeight t.covariance⁻¹ d.covariance⁻¹ = some w ∧ 0 < w ∧ w < 1 ∧
      SameUpToTurns (MotionModel.toVec f.state) v ∧
      (∀ x, disagreement w t d x = disagreement w t d v + errorSq f.covariance v x) ∧
      ∀ x, x ≠ v → disagreement w t d v < disagreement w t d x := by
  obtain ⟨h1, h2, h3⟩ := fuseWeight_spec ht hd
  have hI := fuseInfo_posDef ht hd
  set v := (fuseInfo t.covariance d.covariance)⁻¹ *ᵥ
        (fuseWeight t.covariance d.covariance • (t.covariance⁻¹ *ᵥ rotateYaw (MotionModel.toVec t.state)) +
          (1 - fuseWeight t.covariance d.covariance) • (d.covariance⁻¹ *ᵥ rotateYaw (MotionModel.toVec d.state))) with hv
  have key : ∀ x, disagreement (fuseWeight t.covariance d.covariance) t d x =
      disagreement (fuseWeight t.covariance d.covariance) t d v +
        errorSq (fuseInfo t.covariance d.covariance)⁻¹ v x := fun x => by
    have := fused_square ht hd (w := fuseWeight t.covariance d.covariance) (rotateYaw (MotionModel.toVec t.state))
      (rotateYaw (MotionModel.toVec d.state)) v x (by
        change fuseInfo t.covariance d.covariance *ᵥ v = _
        rw [hv, mulVec_mulVec, mul_nonsing_inv _ (PosDef.isUnit_det hI), one_mulVec])
    unfold disagreement errorSq
    rw [this, nonsing_inv_nonsing_inv (fuseInfo t.covariance d.covariance) (PosDef.isUnit_det hI)]
    rfl
  refine ⟨_, v, _, fusePair_posDef t d ht hd, h1, h2, h3, MotionLaws.toVec_ofVec _, key, fun x hx => ?_⟩
  rw [key x, lt_add_iff_pos_right]
  unfold errorSq
  exact hI.inv.inv.dotProduct_mulVec_pos (sub_ne_zero.2 hx)

/-- C109 (b): in the standard deviations of the detection, the fused state is no further from the
detection than the track was; in those of the track, no further from the track than the detection. If
track and detection differ, it is nearer. -/
theorem C109_nearer (t d : DynObj S (Matrix (Fin n) (Fin n) ℝ)) (ht : t.covariance.PosDef) (hd : d.covariance.PosDef) :
    ∃ f v, fusePair t d = .ok f ∧ SameUpToTurns (MotionModel.toVec f.state) v ∧
      let x := rotateYaw (MotionModel.toVec t.state)
      let y := rotateYaw (MotionModel.toVec d.state)
      errorSq d.covariance y v ≤ errorSq d.covariance y x ∧ errorSq t.covariance x v ≤ errorSq t.covariance x y ∧
      (x ≠ y → errorSq d.covariance y v < errorSq d.covariance y x ∧ errorSq t.covariance x v < errorSq t.covariance x y) := by
  obtain ⟨f, v, w, hf, hgw, w0, w1, hv, hx, hmin⟩ := C109_compromise t d ht hd
  obtain ⟨f', w', hf', -, -, hw', -, hinv⟩ := C32_valid_covariance t d ht hd
  rw [hf] at hf'
  cases hf'
  rw [hgw] at hw'
  cases hw'
  have sym : ∀ p q, errorSq f.covariance p q = w * errorSq t.covariance p q + (1 - w) * errorSq d.covariance p q := by
    intro p q
    unfold errorSq
    rw [hinv, quad_combination]
  have sw : ∀ (M : Matrix (Fin n) (Fin n) ℝ) (p q : Fin n → ℝ), errorSq M p q = errorSq M q p := by
    intro M p q
    unfold errorSq
    rw [← neg_sub p q, mulVec_neg, neg_dotProduct_neg]
  refine ⟨f, v, hf, hv, ?_⟩
  dsimp only
  set x := rotateYaw (MotionModel.toVec t.state) with hxd
  set y := rotateYaw (MotionModel.toVec d.state) with hyd
  have z : ∀ (M : Matrix (Fin n) (Fin n) ℝ) (p : Fin n → ℝ), errorSq M p p = 0 := by
    intro M p; simp [errorSq]
  have nn : ∀ {M : Matrix (Fin n) (Fin n) ℝ}, M.PosDef → ∀ p q : Fin n → ℝ, 0 ≤ errorSq M p q := by
    intro M hM p q
    exact quad_nonneg hM.inv.posSemidef _
  have pp : ∀ {M : Matrix (Fin n) (Fin n) ℝ}, M.PosDef → ∀ p q : Fin n → ℝ, q ≠ p → 0 < errorSq M p q := by
    intro M hM p q h
    exact hM.inv.dotProduct_mulVec_pos (sub_ne_zero.2 h)
  have dis : ∀ p, disagreement w t d p = w * errorSq t.covariance x p + (1 - w) * errorSq d.covariance y p := fun p => rfl
  have le : ∀ p, disagreement w t d v ≤ disagreement w t d p := by
    intro p
    by_cases h : p = v
    · rw [h]
    · exact (hmin p h).le
  have a1 := le x
  have a2 := le y
  rw [dis, dis, z, mul_zero, zero_add] at a1
  rw [dis, dis, z, mul_zero, add_zero] at a2
  have n1 := nn ht x v
  have n2 := nn hd y v
  have hw : 0 < 1 - w := by linarith
  have b1 : errorSq d.covariance y v ≤ errorSq d.covariance y x := by
    refine le_of_mul_le_mul_left ?_ hw
    nlinarith
  have b2 : errorSq t.covariance x v ≤ errorSq t.covariance x y := by
    refine le_of_mul_le_mul_left ?_ w0
    nlinarith
  refine ⟨b1, b2, fun hne => ?_⟩
  constructor
  · by_cases h : v = x
    · exfalso
      have h2 := hx y
      rw [dis, dis, h, z, z, sym x y] at h2
      have := pp hd x y (Ne.symm hne)
      have := sw d.covariance x y
      nlinarith
    · refine lt_of_mul_lt_mul_left ?_ hw.le
      nlinarith [mul_pos w0 (pp ht x v h)]
  · by_cases h : v = y
    · exfalso
      have h2 := hx x
      rw [dis, dis, h, z, z, sym y x] at h2
      have := pp ht y x hne
      have := sw t.covariance x y
      nlinarith
    · refine lt_of_mul_lt_mul_left ?_ w0.le
      nlinarith [mul_pos hw (pp hd y v h)]

/-- C109 (c): a variable other than the heading that is uncorrelated with the rest in both covariances
lies between its two values, divided in the inverse ratio of the variances, times that of the weights. -/
theorem C109_between (t d : DynObj S (Matrix (Fin n) (Fin n) ℝ)) (ht : t.covariance.PosDef) (hd : d.covariance.PosDef)
    {k : Fin n} (hk : k.1 ≠ 3) (hut : Uncorrelated t.covariance k) (hud : Uncorrelated d.covariance k) :
    ∃ f w s, fusePair t d = .ok f ∧ generateWeight t.covariance⁻¹ d.covariance⁻¹ = some w ∧ 0 < s ∧ s < 1 ∧
      s * ((1 - w) * t.covariance k k) = (1 - s) * (w * d.covariance k k) ∧
      MotionModel.toVec f.state k = s * MotionModel.toVec t.state k + (1 - s) * MotionModel.toVec d.state k := by
  obtain ⟨h1, h2, h3⟩ := fuseWeight_spec ht hd
  obtain ⟨s0, s1, hs⟩ := fused_component_coeff ht hd hut hud
  refine ⟨_, _, _, fusePair_posDef t d ht hd, h1, s0, s1, ?_, ?_⟩
  · have p1 : 0 < t.covariance k k := ht.diag_pos
    have p2 : 0 < d.covariance k k := hd.diag_pos
    generalize fuseWeight t.covariance d.covariance = w at *
    have q : w * (t.covariance k k)⁻¹ + (1 - w) * (d.covariance k k)⁻¹ ≠ 0 :=
      (add_pos (mul_pos h2 (inv_pos.2 p1)) (mul_pos (by linarith) (inv_pos.2 p2))).ne'
    rw [one_sub_div q, add_sub_cancel_left, div_mul_eq_mul_div, div_mul_eq_mul_div]
    congr 1
    field_simp
  · have h := MotionLaws.toVec_ofVec (S := S) ((fuseInfo t.covariance d.covariance)⁻¹ *ᵥ
        (fuseWeight t.covariance d.covariance • (t.covariance⁻¹ *ᵥ rotateYaw (MotionModel.toVec t.state)) +
          (1 - fuseWeight t.covariance d.covariance) • (d.covariance⁻¹ *ᵥ rotateYaw (MotionModel.toVec d.state)))) k
    rw [if_neg hk] at h
    dsimp only
    rw [h, hs, rotateYaw_of_ne hk, rotateYaw_of_ne hk]

private theorem fused_away (t d : DynObj S (Matrix (Fin n) (Fin n) ℝ)) {i k : Fin n} (hik : i ≠ k) (hi : i.1 ≠ 3) {s : ℝ}
    (hs : s ≠ 0) (ht : t.covariance = (coupled i k s (-s))⁻¹) (hd : d.covariance = (coupled i k s s)⁻¹)
    (h : MotionModel.toVec t.state i = MotionModel.toVec d.state i) :
    t.covariance.PosDef ∧ d.covariance.PosDef ∧ ∃ f, fusePair t d = .ok f ∧ MotionModel.toVec f.state i =
      MotionModel.toVec t.state i + (rotateYaw (MotionModel.toVec d.state) k - rotateYaw (MotionModel.toVec t.state) k) / (4 * s) := by
  have pt : t.covariance.PosDef := by rw [ht]; exact (coupled_posDef i k (-s) hs).inv
  have pd : d.covariance.PosDef := by rw [hd]; exact (coupled_posDef i k s hs).inv
  refine ⟨pt, pd, _, fusePair_posDef t d pt pd, ?_⟩
  have h2 := MotionLaws.toVec_ofVec (S := S) ((fuseInfo t.covariance d.covariance)⁻¹ *ᵥ
        (fuseWeight t.covariance d.covariance • (t.covariance⁻¹ *ᵥ rotateYaw (MotionModel.toVec t.state)) +
          (1 - fuseWeight t.covariance d.covariance) • (d.covariance⁻¹ *ᵥ rotateYaw (MotionModel.toVec d.state)))) i
  rw [if_neg hi] at h2
  dsimp only
  rw [h2, ht, hd, coupled_fused hik hs _ _ (by rw [rotateYaw_of_ne hi, rotateYaw_of_ne hi, h]), rotateYaw_of_ne hi]

end

/-- C109 (d): in general nothing of this kind holds.  For every bound there are a track and a detection
one metre apart in x that agree in everything else, whose fused y differs from the common one by more
than the bound; for both motion models. -/
theorem C109_far (K : ℝ) :
    (∃ t d f : DynObj CtrvState CtrvCov, t.covariance.PosDef ∧ d.covariance.PosDef ∧ fusePair t d = .ok f ∧
      d.state = { t.state with x := t.state.x + 1 } ∧ t.state.y + K < f.state.y) ∧
    ∃ t d f : DynObj CtraState CtraCov, t.covariance.PosDef ∧ d.covariance.PosDef ∧ fusePair t d = .ok f ∧
      d.state = { t.state with x := t.state.x + 1 } ∧ t.state.y + K < f.state.y := by
  have hs : (1 / (4 * (|K| + 1)) : ℝ) ≠ 0 := by positivity
  have e : (1 : ℝ) / (4 * (1 / (4 * (|K| + 1)))) = |K| + 1 := by
    have : (|K| + 1 : ℝ) ≠ 0 := by positivity
    field_simp
  have hK := le_abs_self K
  constructor
  · obtain ⟨h1, h2, f, hf, h3⟩ := fused_away (S := CtrvState) (n := 5)
      ⟨0, ⟨0, 0, 1, Angle.ofRad 0, 0⟩, (coupled 1 0 (1 / (4 * (|K| + 1))) (-(1 / (4 * (|K| + 1)))))⁻¹, ⟨[1]⟩, .unknown⟩
      ⟨0, ⟨1, 0, 1, Angle.ofRad 0, 0⟩, (coupled 1 0 (1 / (4 * (|K| + 1))) (1 / (4 * (|K| + 1))))⁻¹, ⟨[2]⟩, .unknown⟩
      (i := 1) (k := 0) (by decide) (by decide) hs rfl rfl rfl
    refine ⟨_, _, f, h1, h2, hf, by simp, ?_⟩
    rw [rotateYaw_of_ne (by decide), rotateYaw_of_ne (by decide)] at h3
    change f.state.y = (0 : ℝ) + ((1 : ℝ) - 0) / _ at h3
    rw [h3, sub_zero, e]
    simp only []
    linarith
  · obtain ⟨h1, h2, f, hf, h3⟩ := fused_away (S := CtraState) (n := 6)
      ⟨0, ⟨0, 0, 1, Angle.ofRad 0, 0, 0⟩, (coupled 1 0 (1 / (4 * (|K| + 1))) (-(1 / (4 * (|K| + 1)))))⁻¹, ⟨[1]⟩, .unknown⟩
      ⟨0, ⟨1, 0, 1, Angle.ofRad 0, 0, 0⟩, (coupled 1 0 (1 / (4 * (|K| + 1))) (1 / (4 * (|K| + 1))))⁻¹, ⟨[2]⟩, .unknown⟩
      (i := 1) (k := 0) (by decide) (by decide) hs rfl rfl rfl
    refine ⟨_, _, f, h1, h2, hf, by simp, ?_⟩
    rw [rotateYaw_of_ne (by decide), rotateYaw_of_ne (by decide)] at h3
    change f.state.y = (0 : ℝ) + ((1 : ℝ) - 0) / _ at h3
    rw [h3, sub_zero, e]
    simp only []
    linarith

/-- C109 (e): track and detection at the same position, with headings 3.1 and 3.2 and everything else
equal, and yet the fused position is as far away as you like, because the headings lie on different sides
of the cut and position and heading are correlated. -/
theorem C109_far_heading (K : ℝ) :
    (∃ t d f : DynObj CtrvState CtrvCov, t.covariance.PosDef ∧ d.covariance.PosDef ∧ fusePair t d = .ok f ∧
      t.state.yaw.getAngle = 31 / 10 ∧ d.state = { t.state with yaw := Angle.ofRad (32 / 10) } ∧
      t.state.x + K < f.state.x) ∧
    ∃ t d f : DynObj CtraState CtraCov, t.covariance.PosDef ∧ d.covariance.PosDef ∧ fusePair t d = .ok f ∧
      t.state.yaw.getAngle = 31 / 10 ∧ d.state = { t.state with yaw := Angle.ofRad (32 / 10) } ∧
      t.state.x + K < f.state.x := by
  have hpi := Real.pi_gt_d2
  have hpi' := Real.pi_lt_d2
  have a1 : (Angle.ofRad (31 / 10)).getAngle = 31 / 10 := Angle.getAngle_ofRad_of_range ⟨by norm_num, by linarith⟩
  have a2 : (Angle.ofRad (32 / 10)).getAngle = 32 / 10 := Angle.getAngle_ofRad_of_range ⟨by norm_num, by linarith⟩
  have c1 : (31 / 10 : ℝ) ≤ yawCut := by unfold yawCut; norm_num
  have c2 : (32 / 10 : ℝ) > yawCut := by unfold yawCut; norm_num
  obtain ⟨s, hs, e⟩ : ∃ s : ℝ, s ≠ 0 ∧ (32 / 10 - 2 * yawCut - 31 / 10) / (4 * s) = |K| + 1 := by
    have hc : (32 / 10 - 2 * yawCut - 31 / 10 : ℝ) ≠ 0 := by unfold yawCut; norm_num
    have hk : (|K| + 1 : ℝ) ≠ 0 := by positivity
    refine ⟨(32 / 10 - 2 * yawCut - 31 / 10) / (4 * (|K| + 1)), div_ne_zero hc (by positivity), ?_⟩
    generalize (32 / 10 - 2 * yawCut - 31 / 10 : ℝ) = c at hc ⊢
    field_simp
  have hK := le_abs_self K
  have key : ∀ {n : ℕ} (m : Fin n → ℝ) (k : Fin n), k.1 = 3 →
      (m k = 31 / 10 → rotateYaw m k = 31 / 10) ∧ (m k = 32 / 10 → rotateYaw m k = 32 / 10 - 2 * yawCut) := by
    intro n m k hk
    constructor
    · intro h
      unfold rotateYaw
      rw [h, if_neg fun q => absurd q.2 (not_lt.2 c1)]
    · intro h
      unfold rotateYaw
      rw [h, if_pos ⟨hk, c2⟩]
  constructor
  · obtain ⟨h1, h2, f, hf, h3⟩ := fused_away (S := CtrvState) (n := 5)
      ⟨0, ⟨0, 0, 1, Angle.ofRad (31 / 10), 0⟩, (coupled 0 3 s (-s))⁻¹, ⟨[1]⟩, .unknown⟩
      ⟨0, ⟨0, 0, 1, Angle.ofRad (32 / 10), 0⟩, (coupled 0 3 s s)⁻¹, ⟨[2]⟩, .unknown⟩
      (i := 0) (k := 3) (by decide) (by decide) hs rfl rfl (by simp [MotionModel.toVec, CtrvState.toVec])
    refine ⟨_, _, f, h1, h2, hf, a1, by simp, ?_⟩
    rw [(key _ 3 rfl).2 a2, (key _ 3 rfl).1 a1, e] at h3
    change f.state.x = (0 : ℝ) + _ at h3
    rw [h3]
    simp only []
    linarith
  · obtain ⟨h1, h2, f, hf, h3⟩ := fused_away (S := CtraState) (n := 6)
      ⟨0, ⟨0, 0, 1, Angle.ofRad (31 / 10), 0, 0⟩, (coupled 0 3 s (-s))⁻¹, ⟨[1]⟩, .unknown⟩
      ⟨0, ⟨0, 0, 1, Angle.ofRad (32 / 10), 0, 0⟩, (coupled 0 3 s s)⁻¹, ⟨[2]⟩, .unknown⟩
      (i := 0) (k := 3) (by decide) (by decide) hs rfl rfl (by simp [MotionModel.toVec, CtraState.toVec])
    refine ⟨_, _, f, h1, h2, hf, a1, by simp, ?_⟩
    rw [(key _ 3 rfl).2 a2, (key _ 3 rfl).1 a1, e] at h3
    change f.state.x = (0 : ℝ) + _ at h3
    rw [h3]
    simp only []
    linarith

/-- hypotheses of C109: different states and covariances, x uncorrelated with the rest -/
example : (sampleObj ⟨[1]⟩ 5 1 1).covariance.PosDef ∧ (sampleObj ⟨[2]⟩ 6 2 2).covariance.PosDef ∧
    Uncorrelated (sampleObj ⟨[1]⟩ 5 1 1).covariance 0 ∧ Uncorrelated (sampleObj ⟨[2]⟩ 6 2 2).covariance 0 := by
  refine ⟨PosDef.one, posDef_two, fun j hj => one_apply_ne (Ne.symm hj), fun j hj => ?_⟩
  show (2 : CtrvCov) 0 j = 0
  have : (2 : CtrvCov) = (2 : ℝ) • 1 := by rw [two_smul, one_add_one_eq_two]
  rw [this, Matrix.smul_apply, one_apply_ne (Ne.symm hj), smul_zero]

/-- C109 (c) for a track at 5 m and a detection at 6 m -/
example : ∃ f w s, fusePair (sampleObj ⟨[1]⟩ 5 1 1) (sampleObj ⟨[2]⟩ 6 2 1) = .ok f ∧
    generateWeight (sampleObj ⟨[1]⟩ 5 1 1).covariance⁻¹ (sampleObj ⟨[2]⟩ 6 2 1).covariance⁻¹ = some w ∧ 0 < s ∧ s < 1 ∧
    s * ((1 - w) * (sampleObj ⟨[1]⟩ 5 1 1).covariance 0 0) = (1 - s) * (w * (sampleObj ⟨[2]⟩ 6 2 1).covariance 0 0) ∧
    MotionModel.toVec f.state 0 = s * 5 + (1 - s) * 6 :=
  C109_between (sampleObj ⟨[1]⟩ 5 1 1) (sampleObj ⟨[2]⟩ 6 2 1) PosDef.one PosDef.one (k := 0) (by decide)
    (fun _ hj => one_apply_ne (Ne.symm hj)) (fun _ hj => one_apply_ne (Ne.symm hj))

end Mot.Props
