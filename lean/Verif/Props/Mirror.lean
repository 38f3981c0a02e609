import Verif.Proofs.Mirror
import Verif.Props.Frames
/-!
# Properties about mirrored axes (part of C77)

In exact real arithmetic.
-/

namespace Mot.Props

open Mot Spec Manager Matrix

/-- the circle of the code, twice 3.14159265359, is too large by 4.1…·10⁻¹³ rad -/
theorem C77_circle_excess : 4 / 10 ^ 13 < circleExcess ∧ circleExcess < 5 / 10 ^ 13 := by
  have h1 := Real.pi_gt_d20
  have h2 := Real.pi_lt_d20
  unfold circleExcess yawCut
  norm_num at h1 h2 ⊢
  constructor <;> linarith

/-- C77, mirroring, fusion, the part that holds: if both headings are neither 0 nor within 3·10⁻¹³ of
π, the fused track of mirrored objects is the mirrored fused track, covariance included, except that
its heading is less by 4.1…·10⁻¹³ rad.

Missing: the other headings, and exact equality, which never holds (`C77_mirror_fuse_false`). -/
theorem C77_mirror_fuse_partial :
    (∀ t d : DynObj CtrvState CtrvCov, MirrorSafe t.state.yaw.getAngle → MirrorSafe d.state.yaw.getAngle →
      fusePair (mirror t) (mirror d) =
        onResult (fun f => { mirror f with state := steer (-circleExcess) (mirror f.state) }) (fusePair t d)) ∧
    (∀ t d : DynObj CtraState CtraCov, MirrorSafe t.state.yaw.getAngle → MirrorSafe d.state.yaw.getAngle →
      fusePair (mirror t) (mirror d) =
        onResult (fun f => { mirror f with state := steer (-circleExcess) (mirror f.state) }) (fusePair t d)) :=
  ⟨fun t d => fusePair_mirror t d, fun t d => fusePair_mirror t d⟩

theorem mirrorSafe_one_two {x : ℝ} (h1 : 1 / 10 ≤ x) (h2 : x ≤ 3) : MirrorSafe (Angle.ofRad x).getAngle := by
  have h3 := Real.pi_gt_d2
  obtain ⟨c1, c2⟩ := yawCut_bounds
  norm_num at c2
  rw [Angle.getAngle_ofRad_of_range (by constructor <;> linarith)]
  exact .inl ⟨by linarith, by linarith⟩

/-- mirrored objects are really fused, to the mirrored result -/
example : ∃ f, fusePair (mirror (sampleObj ⟨[1]⟩ 0 1 1)) (mirror (sampleObj ⟨[2]⟩ 4 2 1)) =
    .ok { (mirror f : DynObj CtrvState CtrvCov) with state := steer (-circleExcess) (mirror f.state) } := by
  obtain ⟨f, hf, -⟩ := fusePair_same_yaw (sampleObj ⟨[1]⟩ 0 1 1) (sampleObj ⟨[2]⟩ 4 2 1) PosDef.one rfl
  refine ⟨f, ?_⟩
  rw [C77_mirror_fuse_partial.1 _ _ (mirrorSafe_one_two (by norm_num) (by norm_num))
    (mirrorSafe_one_two (by norm_num) (by norm_num)), hf]
  rfl

theorem steered_ne (a : Angle) : Angle.ofRad (a.getAngle + -circleExcess) ≠ a := by
  intro h
  obtain ⟨e1, e2⟩ := C77_circle_excess
  have h3 := Real.pi_gt_three
  obtain ⟨k, hk⟩ := Angle.sameDir_getAngle (a.getAngle + -circleExcess)
  rw [h] at hk
  have hk' : circleExcess = k * (2 * Real.pi) := by linarith
  rcases lt_trichotomy k 0 with k0 | k0 | k0
  · have : (k : ℝ) ≤ -1 := by exact_mod_cast (by omega : k ≤ -1)
    nlinarith
  · rw [k0, Int.cast_zero, zero_mul] at hk'
    norm_num [hk'] at e1
  · have : (1 : ℝ) ≤ k := by exact_mod_cast k0
    norm_num at e2
    nlinarith

/-- C77 as stated is false for mirroring and fusing: for no such pair of objects that can be fused is
the fused track of the mirrored objects the mirrored fused track. -/
theorem C77_mirror_fuse_false :
    (∀ t d f : DynObj CtrvState CtrvCov, MirrorSafe t.state.yaw.getAngle → MirrorSafe d.state.yaw.getAngle →
      fusePair t d = .ok f → fusePair (mirror t) (mirror d) ≠ .ok (mirror f)) ∧
    (∀ t d f : DynObj CtraState CtraCov, MirrorSafe t.state.yaw.getAngle → MirrorSafe d.state.yaw.getAngle →
      fusePair t d = .ok f → fusePair (mirror t) (mirror d) ≠ .ok (mirror f)) := by
  constructor <;> intro t d f ht hd h e
  · rw [C77_mirror_fuse_partial.1 t d ht hd, h] at e
    have := congrArg (fun o : DynObj CtrvState CtrvCov => o.state.yaw) (Outcome.ok.inj e)
    exact steered_ne _ this
  · rw [C77_mirror_fuse_partial.2 t d ht hd, h] at e
    have := congrArg (fun o : DynObj CtraState CtraCov => o.state.yaw) (Outcome.ok.inj e)
    exact steered_ne _ this

example : ∃ f, fusePair (sampleObj ⟨[1]⟩ 0 1 1) (sampleObj ⟨[2]⟩ 4 2 1) = .ok f ∧
    fusePair (mirror (sampleObj ⟨[1]⟩ 0 1 1)) (mirror (sampleObj ⟨[2]⟩ 4 2 1)) ≠ .ok (mirror f) := by
  obtain ⟨f, hf, -⟩ := fusePair_same_yaw (sampleObj ⟨[1]⟩ 0 1 1) (sampleObj ⟨[2]⟩ 4 2 1) PosDef.one rfl
  exact ⟨f, hf, C77_mirror_fuse_false.1 _ _ f (mirrorSafe_one_two (by norm_num) (by norm_num))
    (mirrorSafe_one_two (by norm_num) (by norm_num)) hf⟩

/-- C77, mirroring, prediction, the part that holds: if the predicted headings of the state and its
sigma points are neither 0 nor within 3·10⁻¹³ of π, predicting a mirrored object is mirroring the
predicted object, covariance included, except that its heading is less by 4.1…·10⁻¹³ rad.

Missing: the other headings, and exact equality, which never holds (`C77_mirror_predict_false`). -/
theorem C77_mirror_predict_partial {chol : Chol} (hchol : IsLlt chol) (dt α β κ : ℝ) :
    (∀ (s : CtrvState) (P : CtrvCov), P.PosDef →
      (∀ p ∈ s :: sigmaLoop s (chol 5 P) √(α ^ 2 * (5 + κ)), MirrorSafe (p.next dt).yaw.getAngle) →
      ukfPredict chol (mirror s) (mirrorMatrix 5 * P * (mirrorMatrix 5)ᵀ) dt α β κ =
        onResult (fun y => (steer (-circleExcess) (mirror y.1), mirrorMatrix 5 * y.2 * (mirrorMatrix 5)ᵀ))
          (ukfPredict chol s P dt α β κ)) ∧
    (∀ (s : CtraState) (P : CtraCov), P.PosDef →
      (∀ p ∈ s :: sigmaLoop s (chol 6 P) √(α ^ 2 * (6 + κ)), MirrorSafe (p.next dt).yaw.getAngle) →
      ukfPredict chol (mirror s) (mirrorMatrix 6 * P * (mirrorMatrix 6)ᵀ) dt α β κ =
        onResult (fun y => (steer (-circleExcess) (mirror y.1), mirrorMatrix 6 * y.2 * (mirrorMatrix 6)ᵀ))
          (ukfPredict chol s P dt α β κ)) :=
  ⟨fun s _ hP h => ukfPredict_mirror hchol s hP dt α β κ h, fun s _ hP h => ukfPredict_mirror hchol s hP dt α β κ h⟩

/-- C77 as stated is false for mirroring and prediction: for no such object that can be predicted is
the prediction of the mirrored object the mirrored prediction. -/
theorem C77_mirror_predict_false {chol : Chol} (hchol : IsLlt chol) (dt α β κ : ℝ) :
    (∀ (s s' : CtrvState) (P P' : CtrvCov), P.PosDef →
      (∀ p ∈ s :: sigmaLoop s (chol 5 P) √(α ^ 2 * (5 + κ)), MirrorSafe (p.next dt).yaw.getAngle) →
      ukfPredict chol s P dt α β κ = .ok (s', P') →
      ukfPredict chol (mirror s) (mirrorMatrix 5 * P * (mirrorMatrix 5)ᵀ) dt α β κ ≠
        .ok (mirror s', mirrorMatrix 5 * P' * (mirrorMatrix 5)ᵀ)) ∧
    (∀ (s s' : CtraState) (P P' : CtraCov), P.PosDef →
      (∀ p ∈ s :: sigmaLoop s (chol 6 P) √(α ^ 2 * (6 + κ)), MirrorSafe (p.next dt).yaw.getAngle) →
      ukfPredict chol s P dt α β κ = .ok (s', P') →
      ukfPredict chol (mirror s) (mirrorMatrix 6 * P * (mirrorMatrix 6)ᵀ) dt α β κ ≠
        .ok (mirror s', mirrorMatrix 6 * P' * (mirrorMatrix 6)ᵀ)) := by
  constructor <;> intro s s' P P' hP hs h e
  · rw [(C77_mirror_predict_partial hchol dt α β κ).1 s P hP hs, h] at e
    have := congrArg (fun o : CtrvState × CtrvCov => o.1.yaw) (Outcome.ok.inj e)
    exact steered_ne _ this
  · rw [(C77_mirror_predict_partial hchol dt α β κ).2 s P hP hs, h] at e
    have := congrArg (fun o : CtraState × CtraCov => o.1.yaw) (Outcome.ok.inj e)
    exact steered_ne _ this

/-- a car heading 3/2 rad with unit covariance, predicted a quarter of a second ahead: prediction
succeeds, and all its sigma points are as required -/
example {chol : Chol} (hchol : IsLlt chol) :
    (∃ y, ukfPredict chol (⟨3, 4, 20, Angle.ofRad (3 / 2), 0⟩ : CtrvState) 1 (1 / 4) 1 0 (-4) = .ok y) ∧
    ∀ p ∈ (⟨3, 4, 20, Angle.ofRad (3 / 2), 0⟩ : CtrvState) ::
      sigmaLoop (⟨3, 4, 20, Angle.ofRad (3 / 2), 0⟩ : CtrvState) (chol 5 1) √(1 ^ 2 * (5 + -4)),
      MirrorSafe (p.next (1 / 4)).yaw.getAngle := by
  refine ⟨?_, fun p h => ?_⟩
  · obtain ⟨x, C, hx, -⟩ := ukfPredict_mean chol (⟨3, 4, 20, Angle.ofRad (3 / 2), 0⟩ : CtrvState) 1 (1 / 4) 1 0 (-4)
      (by norm_num)
    exact ⟨_, hx⟩
  have hL : chol 5 1 = 1 := by
    have := hchol.diagonal (d := fun _ : Fin 5 => 1) fun _ => one_pos
    rw [diagonal_one] at this
    rw [this, Real.sqrt_one, diagonal_one]
  have hr : √((1 : ℝ) ^ 2 * (5 + -4)) = 1 := by norm_num
  rw [hL, hr] at h
  have key : ∀ q : CtrvState, (∃ e, |e| ≤ 1 ∧ q.yaw = Angle.ofRad (3 / 2 + e)) → |q.yawRate| ≤ 1 →
      MirrorSafe (q.next (1 / 4)).yaw.getAngle := by
    rintro q ⟨e, he, hy⟩ hw
    have he := abs_le.1 he
    have hw := abs_le.1 hw
    show MirrorSafe (q.yaw.add (Angle.ofRad (q.yawRate * (1 / 4)))).getAngle
    rw [hy, Angle.add_ofRad]
    exact mirrorSafe_one_two (by linarith [he.1, hw.1]) (by linarith [he.2, hw.2])
  have hone : ∀ i j : Fin 5, |(1 : ℝ) * (1 : CtrvCov) i j| ≤ 1 := fun i j => by
    rw [one_mul, one_apply]
    split <;> norm_num
  rcases List.mem_cons.1 h with rfl | h
  · exact key _ ⟨0, by norm_num, by rw [add_zero]⟩ (by norm_num)
  · obtain ⟨j, -, hj⟩ := List.mem_flatMap.1 h
    rcases List.mem_cons.1 hj with rfl | hj
    · refine key _ ⟨_, hone 3 j, Angle.add_ofRad _ _⟩ ?_
      show |0 + (1 : ℝ) * (1 : CtrvCov) 4 j| ≤ 1
      rw [zero_add]; exact hone 4 j
    · rcases List.mem_singleton.1 hj with rfl
      refine key _ ⟨-((1 : ℝ) * (1 : CtrvCov) 3 j), by rw [abs_neg]; exact hone 3 j,
        (Angle.sub_ofRad _ _).trans (by rw [sub_eq_add_neg]; rfl)⟩ ?_
      show |0 - (1 : ℝ) * (1 : CtrvCov) 4 j| ≤ 1
      rw [zero_sub, abs_neg]; exact hone 4 j

/-- mirrored headings -/
theorem mirrored_heading (a : Angle) : (Angle.ofRad (-a.getAngle)).getAngle = 0 ∧ a.getAngle = 0 ∨
    (Angle.ofRad (-a.getAngle)).getAngle = 2 * Real.pi - a.getAngle ∧ a.getAngle ≠ 0 := by
  by_cases h : a.getAngle = 0
  · refine .inl ⟨?_, h⟩
    rw [h, neg_zero]
    exact Angle.getAngle_ofRad_of_range ⟨le_refl _, by positivity⟩
  · exact .inr ⟨Angle.getAngle_mirror h, h⟩

/-- C77, mirroring, Euclidean score: it is unchanged exactly if both headings are 0, or none is, or
they are opposite. -/
theorem C77_mirror_euclid_iff :
    (∀ s t : CtrvState, (mirror s).euclid (mirror t) = s.euclid t ↔
      (s.yaw.getAngle = 0 ↔ t.yaw.getAngle = 0) ∨ |s.yaw.getAngle - t.yaw.getAngle| = Real.pi) ∧
    (∀ s t : CtraState, (mirror s).euclid (mirror t) = s.euclid t ↔
      (s.yaw.getAngle = 0 ↔ t.yaw.getAngle = 0) ∨ |s.yaw.getAngle - t.yaw.getAngle| = Real.pi) := by
  have hpi := Real.pi_pos
  have key : ∀ (x y u v : ℝ) (A B : Angle),
      poseDistance ![x, -y, (Angle.ofRad (-A.getAngle)).getAngle] ![u, -v, (Angle.ofRad (-B.getAngle)).getAngle] =
        poseDistance ![x, y, A.getAngle] ![u, v, B.getAngle] ↔
      (A.getAngle = 0 ↔ B.getAngle = 0) ∨ |A.getAngle - B.getAngle| = Real.pi := by
    intro x y u v A B
    have hA := mirrored_heading A
    have hB := mirrored_heading B
    unfold poseDistance
    simp only [dotProduct, Fin.sum_univ_three, Pi.sub_apply, cons_val]
    rw [Real.sqrt_inj (add_nonneg (add_nonneg (mul_self_nonneg _) (mul_self_nonneg _)) (mul_self_nonneg _))
      (add_nonneg (add_nonneg (mul_self_nonneg _) (mul_self_nonneg _)) (mul_self_nonneg _)),
      show (-y - -v) * (-y - -v) = (y - v) * (y - v) by ring, add_right_inj]
    rcases hA with ⟨hA, a0⟩ | ⟨hA, a0⟩ <;> rcases hB with ⟨hB, b0⟩ | ⟨hB, b0⟩ <;> rw [hA, hB]
    · rw [a0, b0]; simp
    · rw [a0]
      simp only [true_iff, b0, false_or, zero_sub, abs_neg]
      rw [abs_of_nonneg (Angle.getAngle_range B).1]
      constructor
      · intro h
        have : 4 * Real.pi * (Real.pi - B.getAngle) = 0 := by linear_combination h
        rcases mul_eq_zero.1 this with h | h <;> linarith
      · intro h; rw [h]; ring
    · rw [b0]
      simp only [iff_true, a0, false_or, sub_zero]
      rw [abs_of_nonneg (Angle.getAngle_range A).1]
      constructor
      · intro h
        have : 4 * Real.pi * (Real.pi - A.getAngle) = 0 := by linear_combination h
        rcases mul_eq_zero.1 this with h | h <;> linarith
      · intro h; rw [h]; ring
    · simp only [a0, b0, true_or, iff_true]
      ring
  exact ⟨fun s t => key s.x s.y t.x t.y _ _, fun s t => key s.x s.y t.x t.y _ _⟩

/-- C77 as stated is false for mirroring and the Euclidean score: an object heading 0 and one heading
1/10 are more than 6 apart in the mirror. -/
theorem C77_mirror_score_false : ∃ s t : CtrvState, s.euclid t = 1 / 10 ∧ 6 < (mirror s).euclid (mirror t) := by
  have h3 := Real.pi_gt_d2
  have m : ∀ x, mirror (stand x) = stand (-(Angle.ofRad x).getAngle) := fun x =>
    CtrvState.ext' rfl neg_zero rfl rfl neg_zero
  refine ⟨stand 0, stand (1 / 10), ?_, ?_⟩
  · rw [euclid_stand (by constructor <;> linarith) (by constructor <;> linarith)]
    norm_num [abs_of_pos]
  · rw [m, m, Angle.getAngle_ofRad_of_range (by constructor <;> linarith),
      Angle.getAngle_ofRad_of_range (by constructor <;> linarith), neg_zero]
    have : stand (-(1 / 10)) = stand (2 * Real.pi - 1 / 10) :=
      CtrvState.ext' rfl rfl rfl (Angle.ofRad_eq_iff.2 ⟨-1, by push_cast; ring⟩) rfl
    rw [this, euclid_stand (by constructor <;> linarith) (by constructor <;> linarith), zero_sub, abs_neg,
      abs_of_pos (by linarith)]
    linarith

/-- C77, mirroring, Mahalanobis score, the part that holds: it is unchanged if both headings are 0 or
none is.

Missing: one heading 0 and the other not (`C77_mirror_mahalanobis_false`). -/
theorem C77_mirror_mahalanobis_partial :
    (∀ (s t : CtrvState) (P : CtrvCov), (s.yaw.getAngle = 0 ↔ t.yaw.getAngle = 0) →
      (mirror s).mahalanobis (mirrorMatrix 5 * P * (mirrorMatrix 5)ᵀ) (mirror t) = s.mahalanobis P t) ∧
    (∀ (s t : CtraState) (P : CtraCov), (s.yaw.getAngle = 0 ↔ t.yaw.getAngle = 0) →
      (mirror s).mahalanobis (mirrorMatrix 6 * P * (mirrorMatrix 6)ᵀ) (mirror t) = s.mahalanobis P t) := by
  have key : ∀ (x y u v : ℝ) {A B : Angle}, (A.getAngle = 0 ↔ B.getAngle = 0) →
      (![x, -y, (Angle.ofRad (-A.getAngle)).getAngle] : Fin 3 → ℝ) - ![u, -v, (Angle.ofRad (-B.getAngle)).getAngle] =
        mirrorPose *ᵥ (![x, y, A.getAngle] - ![u, v, B.getAngle]) := by
    intro x y u v A B h
    have e := Angle.mirror_sub h
    funext i
    fin_cases i
    · simp [mirrorPose, mulVec, dotProduct, Fin.sum_univ_three]
    · simp [mirrorPose, mulVec, dotProduct, Fin.sum_univ_three]; ring
    · refine e.trans ?_
      simp [mirrorPose, mulVec, dotProduct, Fin.sum_univ_three]
  constructor <;> intro s t P h
  · unfold CtrvState.mahalanobis
    rw [pose_mirrored_cov.1]
    exact poseMahalanobis_linear mirrorPose_mul _ (key s.x s.y t.x t.y h)
  · unfold CtraState.mahalanobis
    rw [pose_mirrored_cov.2]
    exact poseMahalanobis_linear mirrorPose_mul _ (key s.x s.y t.x t.y h)

/-- C77 as stated is false for mirroring and the Mahalanobis score -/
theorem C77_mirror_mahalanobis_false : ∃ (s t : CtrvState) (d e : ℝ), s.mahalanobis 1 t = .some d ∧ d = 1 / 10 ∧
    (mirror s).mahalanobis (mirrorMatrix 5 * 1 * (mirrorMatrix 5)ᵀ) (mirror t) = .some e ∧ 6 < e := by
  obtain ⟨s, t, h1, h2⟩ := C77_mirror_score_false
  have hc : mirrorMatrix 5 * 1 * (mirrorMatrix 5)ᵀ = 1 := by
    rw [mul_one, mirrorMatrix_transpose, mirrorMatrix_mul]
  have hp : CtrvCov.pose 1 = 1 := by
    ext i j; fin_cases i <;> fin_cases j <;> simp [CtrvCov.pose]
  have hm : ∀ s t : CtrvState, s.mahalanobis 1 t = .some (s.euclid t) := by
    intro s t
    unfold CtrvState.mahalanobis CtrvState.euclid poseMahalanobis poseDistance
    rw [hp]
    simp only [inv_one, vecMul_one, det_one, isUnit_one, true_and]
    rw [if_pos]
    rw [dotProduct, Fin.sum_univ_three]
    exact add_nonneg (add_nonneg (mul_self_nonneg _) (mul_self_nonneg _)) (mul_self_nonneg _)
  exact ⟨s, t, _, _, hm s t, h1, by rw [hc]; exact hm _ _, h2⟩

/-- headings 1 and 2, and the score that stays -/
example : ((⟨0, 1, 5, Angle.ofRad 1, 0⟩ : CtrvState).yaw.getAngle = 0 ↔
    (⟨2, 1, 5, Angle.ofRad 2, 0⟩ : CtrvState).yaw.getAngle = 0) ∧
    (mirror (⟨0, 1, 5, Angle.ofRad 1, 0⟩ : CtrvState)).euclid (mirror ⟨2, 1, 5, Angle.ofRad 2, 0⟩) =
      (⟨0, 1, 5, Angle.ofRad 1, 0⟩ : CtrvState).euclid ⟨2, 1, 5, Angle.ofRad 2, 0⟩ := by
  have h3 := Real.pi_gt_three
  have h : (Angle.ofRad 1).getAngle = 0 ↔ (Angle.ofRad 2).getAngle = 0 := by
    rw [Angle.getAngle_ofRad_of_range (by constructor <;> linarith),
      Angle.getAngle_ofRad_of_range (by constructor <;> linarith)]
    norm_num
  exact ⟨h, (C77_mirror_euclid_iff.1 _ _).2 (.inl h)⟩

end Mot.Props
