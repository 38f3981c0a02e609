import Verif.Proofs.FrameChange
import Verif.Props.Fusing
import Verif.Props.Pipeline
/-!
# Properties about the choice of coordinates and units (C76-C78)

In exact real arithmetic.
-/

namespace Mot.Props

open Mot Spec Manager Matrix

/-! ## C76: the origin -/

/-- C76, motion: a shifted state moves to the shifted next state. -/
theorem C76_next (p q t : ℝ) (n : ProcessNoise) :
    (∀ s : CtrvState, (shift p q s).next t = shift p q (s.next t) ∧
      (shift p q s).nextNoisy t n = shift p q (s.nextNoisy t n)) ∧
    (∀ s : CtraState, (shift p q s).next t = shift p q (s.next t) ∧
      (shift p q s).nextNoisy t n = shift p q (s.nextNoisy t n)) := by
  refine ⟨fun s => ⟨CtrvState.next_shift p q s t, ?_⟩, fun s => ⟨CtraState.next_shift p q s t, ?_⟩⟩
  · unfold CtrvState.nextNoisy
    rw [CtrvState.next_shift]
    exact CtrvState.ext' (add_right_comm _ _ _) (add_right_comm _ _ _) rfl rfl rfl
  · unfold CtraState.nextNoisy
    rw [CtraState.next_shift]
    exact CtraState.ext' (add_right_comm _ _ _) (add_right_comm _ _ _) rfl rfl rfl rfl

/-- C76, prediction: predicting a shifted object is shifting the predicted object, whatever the
parameters and whatever `matrixL()` returns. -/
theorem C76_predict (chol : Chol) (α β κ p q time : ℝ) (o : MotObj) :
    predict2 (shift p q o) time (unscentedTransform chol α β κ) (unscentedTransform chol α β κ) =
      onResult (shift p q) (predict2 o time (unscentedTransform chol α β κ)
        (unscentedTransform chol α β κ)) := by
  rcases o with o | o
  · show predict2 (.inl (shift p q o)) _ _ _ = _
    simp only [predict2, propagate2, propagate, unscentedTransform]
    rw [show (shift p q o).state = shift p q o.state from rfl,
      show (shift p q o).covariance = o.covariance from rfl,
      show (shift p q o).timestamp = o.timestamp from rfl, ukfPredict_shift]
    rcases ukfPredict chol o.state o.covariance (time - o.timestamp) α κ β with ⟨s, C⟩ | e | w <;> rfl
  · show predict2 (.inr (shift p q o)) _ _ _ = _
    simp only [predict2, propagate2, propagate, unscentedTransform]
    rw [show (shift p q o).state = shift p q o.state from rfl,
      show (shift p q o).covariance = o.covariance from rfl,
      show (shift p q o).timestamp = o.timestamp from rfl, ukfPredict_shift]
    rcases ukfPredict chol o.state o.covariance (time - o.timestamp) α κ β with ⟨s, C⟩ | e | w <;> rfl

theorem pose_shift (p q : ℝ) :
    (∀ s t : CtrvState, (shift p q s).pose - (shift p q t).pose = s.pose - t.pose) ∧
    (∀ s t : CtraState, (shift p q s).pose - (shift p q t).pose = s.pose - t.pose) := by
  constructor <;> intro s t <;> funext i <;> fin_cases i
  · exact add_sub_add_right_eq_sub _ _ _
  · exact add_sub_add_right_eq_sub _ _ _
  · rfl
  · exact add_sub_add_right_eq_sub _ _ _
  · exact add_sub_add_right_eq_sub _ _ _
  · rfl

/-- C76, scores: shifting both objects changes no distance. -/
theorem C76_scores (p q : ℝ) :
    (∀ s t : CtrvState, (shift p q s).euclid (shift p q t) = s.euclid t ∧
      ∀ P, (shift p q s).mahalanobis P (shift p q t) = s.mahalanobis P t) ∧
    (∀ s t : CtraState, (shift p q s).euclid (shift p q t) = s.euclid t ∧
      ∀ P, (shift p q s).mahalanobis P (shift p q t) = s.mahalanobis P t) := by
  obtain ⟨h1, h2⟩ := pose_shift p q
  refine ⟨fun s t => ⟨?_, fun P => ?_⟩, fun s t => ⟨?_, fun P => ?_⟩⟩
  · simp only [CtrvState.euclid, poseDistance, h1]
  · have := poseMahalanobis_linear (R := 1) (R' := 1) (one_mul 1) P.pose
      (show (shift p q s).pose - (shift p q t).pose = 1 *ᵥ (s.pose - t.pose) by rw [h1, one_mulVec])
    rw [one_mul, transpose_one, mul_one] at this
    exact this
  · simp only [CtraState.euclid, poseDistance, h2]
  · have := poseMahalanobis_linear (R := 1) (R' := 1) (one_mul 1) P.pose
      (show (shift p q s).pose - (shift p q t).pose = 1 *ᵥ (s.pose - t.pose) by rw [h2, one_mulVec])
    rw [one_mul, transpose_one, mul_one] at this
    exact this

/-- C76, fusion: the fused track of shifted objects is the shifted fused track. -/
theorem C76_fuse (p q : ℝ) (t d : MotObj) :
    ciVisitor (shift p q t) (shift p q d) = onResult (shift p q) (ciVisitor t d) :=
  ciVisitor_shift p q t d

/-- the distances of the library, rounded in some way -/
def IsRoundedMetric (metric : MotObj → MotObj → Option FP) : Prop :=
  (∃ r : ℝ → FP, metric = euclideanScore (fun s t => r (s.euclid t)) fun s t => r (s.euclid t)) ∨
  (∃ r : Option ℝ → FP, metric =
    mahalanobisScore (fun s P t => r (s.mahalanobis P t)) fun s P t => r (s.mahalanobis P t))

theorem metric_shift {metric : MotObj → MotObj → Option FP} (h : IsRoundedMetric metric) (p q : ℝ)
    (t d : MotObj) : metric (shift p q t) (shift p q d) = metric t d := by
  obtain ⟨h1, h2⟩ := C76_scores p q
  rcases h with ⟨r, rfl⟩ | ⟨r, rfl⟩
  · rcases t with t | t <;> rcases d with d | d
    · show some (r ((shift p q t.state).euclid (shift p q d.state))) = _
      rw [(h1 _ _).1]; rfl
    · rfl
    · rfl
    · show some (r ((shift p q t.state).euclid (shift p q d.state))) = _
      rw [(h2 _ _).1]; rfl
  · rcases t with t | t <;> rcases d with d | d
    · show some (r ((shift p q t.state).mahalanobis t.covariance (shift p q d.state))) = _
      rw [(h1 _ _).2]; rfl
    · rfl
    · rfl
    · show some (r ((shift p q t.state).mahalanobis t.covariance (shift p q d.state))) = _
      rw [(h2 _ _).2]; rfl

/-- C76, association: the association map does not depend on the origin. -/
theorem C76_associate (solve : Solver) {metric : MotObj → MotObj → Option FP}
    (hm : IsRoundedMetric metric) (gate : FP → Bool) (p q : ℝ) (ts ds : List MotObj) :
    associateStep solve metric gate (ts.map (shift p q)) (ds.map (shift p q)) =
      associateStep solve metric gate ts ds := by
  unfold associateStep
  rw [score_hom (isHom_shift_obj2 p q) (metric_shift hm p q)]

/-- C76, one cycle: with all tracks and detections shifted, the cycle ends in the same way with the
same association map, and the tracks of the manager are shifted. -/
theorem C76_cycle (solve : Solver) {metric : MotObj → MotObj → Option FP}
    (hm : IsRoundedMetric metric) (gate : FP → Bool) (p q : ℝ) (ds : List MotObj)
    (m : Manager MotObj) :
    cycle solve metric gate ciVisitor (ds.map (shift p q)) (onTracks (shift p q) m) =
      (onTracks (shift p q) (cycle solve metric gate ciVisitor ds m).1,
        (cycle solve metric gate ciVisitor ds m).2) ∧
    ∀ a, addUnassociated makeTrack2 a (ds.map (shift p q)) (onTracks (shift p q) m) =
      (onTracks (shift p q) (addUnassociated makeTrack2 a ds m).1,
        (addUnassociated makeTrack2 a ds m).2) := by
  refine ⟨cycle_hom (isHom_shift_obj2 p q) solve (metric_shift hm p q) gate
    (ciVisitor_shift p q) ds m, fun a => addUnassociated_hom (isHom_shift_obj2 p q) ?_ a ds m⟩
  rintro (t | t) <;> rfl

/-- C76, clustering: the clusters of shifted detections are the shifted clusters, in the same
order; for distinct UUIDs their centroids are the shifted centroids. -/
theorem C76_cluster {C C' : Type} (p q r : ℝ) (ds : List (Obj2 CtrvState C CtraState C')) :
    List.Forall₂ (fun c c' => c'.detections.entries =
        c.detections.entries.map (fun e => (e.1, shift p q e.2)))
      (clusterDetectionsDefault ds r) (clusterDetectionsDefault (ds.map (shift p q)) r) ∧
    ((ds.map Identified.id).Nodup →
      List.Forall₂ (fun c c' => c'.centroid = onResult (shift p q) c.centroid)
        (clusterDetectionsDefault ds r) (clusterDetectionsDefault (ds.map (shift p q)) r)) := by
  have hw : ∀ (P : Point) (d : Obj2 CtrvState C CtraState C'),
      Clusterable.sqDist (shift p q P) (shift p q d) = Clusterable.sqDist P d :=
    ShiftReads.sqDist_shift p q
  classical
  refine ⟨clusterDetections_shift p q (fun P d => ?_) ds,
    fun hn => clusterDetections_shift_centroid p q (fun P d => ?_) ds hn⟩ <;> simp only [hw]

/-- a rounded Euclidean distance, and two objects that are told apart by it -/
noncomputable def roundedMetric : MotObj → MotObj → Option FP :=
  euclideanScore (fun s t => .fin ⌊s.euclid t⌋) fun s t => .fin ⌊s.euclid t⌋

example : IsRoundedMetric roundedMetric := .inl ⟨fun x => .fin ⌊x⌋, rfl⟩

example : roundedMetric (motCtrv 1) (motCtrv 4) = some (.fin 3) ∧
    roundedMetric (shift 10 20 (motCtrv 1)) (shift 10 20 (motCtrv 4)) = some (.fin 3) := by
  have h : roundedMetric (motCtrv 1) (motCtrv 4) = some (.fin 3) := by
    have : CtrvState.euclid ⟨1, 2, 3, Angle.ofRad 0, 1⟩ ⟨4, 2, 3, Angle.ofRad 0, 1⟩ = 3 := by
      unfold CtrvState.euclid poseDistance CtrvState.pose
      simp only [dotProduct, Fin.sum_univ_three, Pi.sub_apply, cons_val, sub_self]
      rw [show ((1 : ℝ) - 4) * (1 - 4) + 0 * 0 + 0 * 0 = 3 ^ 2 by norm_num]
      exact Real.sqrt_sq (by norm_num)
    show some (FP.fin ⌊CtrvState.euclid ⟨((1 : Fin 256) : ℕ), 2, 3, Angle.ofRad 0, 1⟩
      ⟨((4 : Fin 256) : ℕ), 2, 3, Angle.ofRad 0, 1⟩⌋) = _
    rw [show (((1 : Fin 256) : ℕ) : ℝ) = 1 by norm_num, show (((4 : Fin 256) : ℕ) : ℝ) = 4 by
      exact_mod_cast (by decide : ((4 : Fin 256) : ℕ) = 4), this]
    norm_num
  exact ⟨h, (metric_shift (.inl ⟨fun x => .fin ⌊x⌋, rfl⟩) 10 20 _ _).trans h⟩

/-! ## C77: the direction of the axes -/

/-- C77, motion: a turned state moves to the turned next state; a mirrored state moves to the
mirrored next state. -/
theorem C77_next (φ t : ℝ) :
    (∀ s : CtrvState, (turn φ s).next t = turn φ (s.next t) ∧
      (mirror s).next t = mirror (s.next t)) ∧
    (∀ s : CtraState, (turn φ s).next t = turn φ (s.next t) ∧
      (mirror s).next t = mirror (s.next t)) :=
  ⟨fun s => ⟨CtrvState.next_turned φ s t, CtrvState.next_mirror s t⟩,
    fun s => ⟨CtraState.next_turned φ s t, CtraState.next_mirror s t⟩⟩

/-- C77, motion with noise -/
theorem C77_nextNoisy (φ t : ℝ) (n : ProcessNoise) :
    (∀ s : CtrvState, (turn φ s).nextNoisy t n = turn φ (s.nextNoisy t n) ∧
      (mirror s).nextNoisy t ⟨n.lin, -n.ang⟩ = mirror (s.nextNoisy t n)) ∧
    (∀ s : CtraState, (turn φ s).nextNoisy t n = turn φ (s.nextNoisy t n) ∧
      (mirror s).nextNoisy t ⟨n.lin, -n.ang⟩ = mirror (s.nextNoisy t n)) := by
  refine ⟨fun s => ⟨?_, ?_⟩, fun s => ⟨?_, ?_⟩⟩
  · have hd : SameDir (turn φ s).yaw.getAngle (s.yaw.getAngle + φ) := Angle.sameDir_getAngle _
    unfold CtrvState.nextNoisy
    rw [CtrvState.next_turned]
    refine CtrvState.ext' ?_ ?_ rfl (Angle.turn_add _ _ _) rfl
    · show Real.cos φ * _ - Real.sin φ * _ + _ = Real.cos φ * (_ + _) - Real.sin φ * (_ + _)
      rw [hd.cos_eq, Real.cos_add]; ring
    · show Real.sin φ * _ + Real.cos φ * _ + _ = Real.sin φ * (_ + _) + Real.cos φ * (_ + _)
      rw [hd.sin_eq, Real.sin_add]; ring
  · have hd : SameDir (mirror s).yaw.getAngle (-s.yaw.getAngle) := Angle.sameDir_getAngle _
    unfold CtrvState.nextNoisy
    rw [CtrvState.next_mirror]
    refine CtrvState.ext' ?_ ?_ rfl ?_ ?_
    · show _ + 1 / 2 * n.lin * Real.cos (mirror s).yaw.getAngle * t ^ 2 = _
      rw [hd.cos_eq, Real.cos_neg]; rfl
    · show -_ + 1 / 2 * n.lin * Real.sin (mirror s).yaw.getAngle * t ^ 2 = -(_ + _)
      rw [hd.sin_eq, Real.sin_neg]; ring
    · show (Angle.ofRad _).add (Angle.ofRad (1 / 2 * -n.ang * t ^ 2)) = _
      rw [show 1 / 2 * -n.ang * t ^ 2 = -(1 / 2 * n.ang * t ^ 2) by ring]
      exact Angle.mirror_add _ _
    · show -_ + -n.ang * t = -(_ + _)
      ring
  · have hd : SameDir (turn φ s).yaw.getAngle (s.yaw.getAngle + φ) := Angle.sameDir_getAngle _
    unfold CtraState.nextNoisy
    rw [CtraState.next_turned]
    refine CtraState.ext' ?_ ?_ rfl (Angle.turn_add _ _ _) rfl rfl
    · show Real.cos φ * _ - Real.sin φ * _ + _ = Real.cos φ * (_ + _) - Real.sin φ * (_ + _)
      rw [hd.cos_eq, Real.cos_add]; ring
    · show Real.sin φ * _ + Real.cos φ * _ + _ = Real.sin φ * (_ + _) + Real.cos φ * (_ + _)
      rw [hd.sin_eq, Real.sin_add]; ring
  · have hd : SameDir (mirror s).yaw.getAngle (-s.yaw.getAngle) := Angle.sameDir_getAngle _
    unfold CtraState.nextNoisy
    rw [CtraState.next_mirror]
    refine CtraState.ext' ?_ ?_ rfl ?_ ?_ rfl
    · show _ + 1 / 2 * n.lin * Real.cos (mirror s).yaw.getAngle * t ^ 2 = _
      rw [hd.cos_eq, Real.cos_neg]; rfl
    · show -_ + 1 / 2 * n.lin * Real.sin (mirror s).yaw.getAngle * t ^ 2 = -(_ + _)
      rw [hd.sin_eq, Real.sin_neg]; ring
    · show (Angle.ofRad _).add (Angle.ofRad (1 / 2 * -n.ang * t ^ 2)) = _
      rw [show 1 / 2 * -n.ang * t ^ 2 = -(1 / 2 * n.ang * t ^ 2) by ring]
      exact Angle.mirror_add _ _
    · show -_ + -n.ang * t = -(_ + _)
      ring

/-- C77, fusion, the part that holds: if turning by φ takes neither heading across 0 or
3.14159265359, the fused track of turned objects is the turned fused track, covariance included.

Missing: headings that cross (`C77_fuse_false`). -/
theorem C77_fuse_partial (φ : ℝ) :
    (∀ t d : DynObj CtrvState CtrvCov, NoWrap φ t.state.yaw.getAngle →
      NoWrap φ d.state.yaw.getAngle →
      fusePair (turn φ t) (turn φ d) = onResult (turn φ) (fusePair t d)) ∧
    (∀ t d : DynObj CtraState CtraCov, NoWrap φ t.state.yaw.getAngle →
      NoWrap φ d.state.yaw.getAngle →
      fusePair (turn φ t) (turn φ d) = onResult (turn φ) (fusePair t d)) := by
  constructor
  · intro t d ht hd
    rcases fusePair_affine (turnMatrix_neg_mul φ).1 (t := t) (d := d) (t' := turn φ t)
      (d' := turn φ d) rfl rfl (toVec_turned ht) (toVec_turned hd) with ⟨w, h1, h2⟩ | ⟨m, C, h1, h2⟩
    · rw [h1, h2]; rfl
    · rw [h1, h2]
      have : (MotionModel.ofVec (turnMatrix 5 φ *ᵥ m + headingVec 5 φ) : CtrvState) = _ :=
        ofVec_turned φ m
      rw [this]; rfl
  · intro t d ht hd
    rcases fusePair_affine (turnMatrix_neg_mul φ).2 (t := t) (d := d) (t' := turn φ t)
      (d' := turn φ d) rfl rfl (toVec_turned' ht) (toVec_turned' hd) with ⟨w, h1, h2⟩ | ⟨m, C, h1, h2⟩
    · rw [h1, h2]; rfl
    · rw [h1, h2]
      have : (MotionModel.ofVec (turnMatrix 6 φ *ᵥ m + headingVec 6 φ) : CtraState) = _ :=
        ofVec_turned' φ m
      rw [this]; rfl

example : NoWrap (1 / 10) 1 ∧ NoWrap (-1 / 10) 4 ∧ ¬ NoWrap 1 3 := by
  have h3 := Real.pi_gt_three
  have h4 := Real.pi_lt_d2
  obtain ⟨c1, c2⟩ := yawCut_bounds
  norm_num at c2
  refine ⟨⟨by constructor <;> linarith, by constructor <;> intro <;> linarith⟩,
    ⟨by constructor <;> linarith, by constructor <;> intro <;> linarith⟩, fun h => ?_⟩
  have := h.2.1 (by linarith)
  linarith

/-- turned objects are really fused, to the turned result -/
example : ∃ f, fusePair (turn (1 / 10) (sampleObj ⟨[1]⟩ 0 1 1))
    (turn (1 / 10) (sampleObj ⟨[2]⟩ 4 2 1)) = .ok (turn (1 / 10) f) := by
  have h3 := Real.pi_gt_three
  obtain ⟨c1, c2⟩ := yawCut_bounds
  obtain ⟨f, hf, -⟩ := fusePair_same_yaw (sampleObj ⟨[1]⟩ 0 1 1) (sampleObj ⟨[2]⟩ 4 2 1)
    PosDef.one rfl
  refine ⟨f, ?_⟩
  have e : ∀ x : ℝ, 1 ≤ x → x ≤ 2 → NoWrap (1 / 10) (Angle.ofRad x).getAngle := fun x h1 h2 => by
    rw [Angle.getAngle_ofRad_of_range (by constructor <;> linarith)]
    exact ⟨by constructor <;> linarith, by constructor <;> intro <;> linarith⟩
  rw [(C77_fuse_partial _).1 _ _ (e 1 (by norm_num) (by norm_num)) (e 2 (by norm_num) (by norm_num)), hf]
  rfl

/-- C77, scores, the part that holds: if turning by φ takes neither heading across 0, no distance
changes.

Missing: headings that cross 0 (`C77_score_false`). -/
theorem C77_scores_partial (φ : ℝ) :
    (∀ s t : CtrvState, 0 ≤ s.yaw.getAngle + φ ∧ s.yaw.getAngle + φ < 2 * Real.pi →
      0 ≤ t.yaw.getAngle + φ ∧ t.yaw.getAngle + φ < 2 * Real.pi →
      (turn φ s).euclid (turn φ t) = s.euclid t ∧
      ∀ P, (turn φ s).mahalanobis (turnMatrix 5 φ * P * (turnMatrix 5 φ)ᵀ) (turn φ t) =
        s.mahalanobis P t) ∧
    (∀ s t : CtraState, 0 ≤ s.yaw.getAngle + φ ∧ s.yaw.getAngle + φ < 2 * Real.pi →
      0 ≤ t.yaw.getAngle + φ ∧ t.yaw.getAngle + φ < 2 * Real.pi →
      (turn φ s).euclid (turn φ t) = s.euclid t ∧
      ∀ P, (turn φ s).mahalanobis (turnMatrix 6 φ * P * (turnMatrix 6 φ)ᵀ) (turn φ t) =
        s.mahalanobis P t) := by
  constructor
  · intro s t hs ht
    have hd : (turn φ s).pose - (turn φ t).pose = turnPose φ *ᵥ (s.pose - t.pose) := by
      refine Eq.trans ?_ (pose_turned_sub φ)
      congr 2
      · show ![_, _, (Angle.ofRad _).getAngle] = _
        rw [Angle.getAngle_ofRad_of_range hs]; rfl
      · show ![_, _, (Angle.ofRad _).getAngle] = _
        rw [Angle.getAngle_ofRad_of_range ht]; rfl
    refine ⟨?_, fun P => ?_⟩
    · unfold CtrvState.euclid poseDistance
      simp only [hd, turnPose_dot]
    · unfold CtrvState.mahalanobis
      rw [(pose_turned_cov φ).1]
      exact poseMahalanobis_linear (turnPose_neg_mul φ) _ hd
  · intro s t hs ht
    have hd : (turn φ s).pose - (turn φ t).pose = turnPose φ *ᵥ (s.pose - t.pose) := by
      refine Eq.trans ?_ (pose_turned_sub φ)
      congr 2
      · show ![_, _, (Angle.ofRad _).getAngle] = _
        rw [Angle.getAngle_ofRad_of_range hs]; rfl
      · show ![_, _, (Angle.ofRad _).getAngle] = _
        rw [Angle.getAngle_ofRad_of_range ht]; rfl
    refine ⟨?_, fun P => ?_⟩
    · unfold CtraState.euclid poseDistance
      simp only [hd, turnPose_dot]
    · unfold CtraState.mahalanobis
      rw [(pose_turned_cov φ).2]
      exact poseMahalanobis_linear (turnPose_neg_mul φ) _ hd

/-- a standing CTRV object at the origin -/
noncomputable def stand (ψ : ℝ) : CtrvState := ⟨0, 0, 0, Angle.ofRad ψ, 0⟩

theorem turn_stand (φ ψ : ℝ) : turn φ (stand ψ) = stand (ψ + φ) := by
  refine CtrvState.ext' ?_ ?_ rfl ?_ rfl
  · show Real.cos φ * 0 - Real.sin φ * 0 = 0
    ring
  · show Real.sin φ * 0 + Real.cos φ * 0 = 0
    ring
  · exact Angle.ofRad_getAngle_add _ _

theorem euclid_stand {a b : ℝ} (ha : 0 ≤ a ∧ a < 2 * Real.pi) (hb : 0 ≤ b ∧ b < 2 * Real.pi) :
    (stand a).euclid (stand b) = |a - b| := by
  unfold CtrvState.euclid poseDistance CtrvState.pose stand
  simp only
  rw [Angle.getAngle_ofRad_of_range ha, Angle.getAngle_ofRad_of_range hb,
    dotProduct, Fin.sum_univ_three]
  simp [← pow_two, Real.sqrt_sq_eq_abs]

/-- how often the heading `a` crosses 0 upwards when turned by φ -/
noncomputable def crossings (φ a : ℝ) : ℤ := ⌊(a + φ) / (2 * Real.pi)⌋

theorem turned_heading (φ a : ℝ) :
    (Angle.ofRad (a + φ)).getAngle = a + φ - 2 * Real.pi * crossings φ a := by
  have hp : 0 < 2 * Real.pi := by positivity
  have h1 := Int.floor_le ((a + φ) / (2 * Real.pi))
  have h2 := Int.lt_floor_add_one ((a + φ) / (2 * Real.pi))
  rw [le_div_iff₀ hp] at h1
  rw [div_lt_iff₀ hp] at h2
  have e : Angle.ofRad (a + φ) = Angle.ofRad (a + φ - 2 * Real.pi * crossings φ a) := by
    rw [Angle.ofRad_eq_iff]
    exact ⟨crossings φ a, by ring⟩
  unfold crossings at *
  rw [e, Angle.getAngle_ofRad_of_range (by constructor <;> linarith)]

/-- C77, Euclidean score: turning both objects by φ leaves it unchanged exactly if both headings cross
0 equally often or the headings are opposite. -/
theorem C77_euclid_iff (φ : ℝ) :
    (∀ s t : CtrvState, (turn φ s).euclid (turn φ t) = s.euclid t ↔
      crossings φ s.yaw.getAngle = crossings φ t.yaw.getAngle ∨
        |s.yaw.getAngle - t.yaw.getAngle| = Real.pi) ∧
    (∀ s t : CtraState, (turn φ s).euclid (turn φ t) = s.euclid t ↔
      crossings φ s.yaw.getAngle = crossings φ t.yaw.getAngle ∨
        |s.yaw.getAngle - t.yaw.getAngle| = Real.pi) := by
  have hpi := Real.pi_pos
  have key : ∀ (x y u v : ℝ) (A B : Angle),
      poseDistance ![Real.cos φ * x - Real.sin φ * y, Real.sin φ * x + Real.cos φ * y,
          (Angle.ofRad (A.getAngle + φ)).getAngle]
        ![Real.cos φ * u - Real.sin φ * v, Real.sin φ * u + Real.cos φ * v,
          (Angle.ofRad (B.getAngle + φ)).getAngle] =
        poseDistance ![x, y, A.getAngle] ![u, v, B.getAngle] ↔
      crossings φ A.getAngle = crossings φ B.getAngle ∨ |A.getAngle - B.getAngle| = Real.pi := by
    intro x y u v A B
    have hA := Angle.getAngle_range A
    have hB := Angle.getAngle_range B
    have hA' := Angle.getAngle_range (Angle.ofRad (A.getAngle + φ))
    have hB' := Angle.getAngle_range (Angle.ofRad (B.getAngle + φ))
    rw [turned_heading] at hA' hB'
    rw [turned_heading, turned_heading]
    generalize A.getAngle = a at *
    generalize B.getAngle = b at *
    generalize crossings φ a = m at *
    generalize crossings φ b = n at *
    unfold poseDistance
    simp only [dotProduct, Fin.sum_univ_three, Pi.sub_apply, cons_val]
    rw [Real.sqrt_inj (add_nonneg (add_nonneg (mul_self_nonneg _) (mul_self_nonneg _))
      (mul_self_nonneg _)) (add_nonneg (add_nonneg (mul_self_nonneg _) (mul_self_nonneg _))
      (mul_self_nonneg _))]
    have hcs := Real.cos_sq_add_sin_sq φ
    have hrot : (Real.cos φ * x - Real.sin φ * y - (Real.cos φ * u - Real.sin φ * v)) *
        (Real.cos φ * x - Real.sin φ * y - (Real.cos φ * u - Real.sin φ * v)) +
        (Real.sin φ * x + Real.cos φ * y - (Real.sin φ * u + Real.cos φ * v)) *
        (Real.sin φ * x + Real.cos φ * y - (Real.sin φ * u + Real.cos φ * v)) =
        (x - u) * (x - u) + (y - v) * (y - v) := by
      linear_combination ((x - u) * (x - u) + (y - v) * (y - v)) * hcs
    rw [hrot, add_right_inj]
    have hd : a + φ - 2 * Real.pi * m - (b + φ - 2 * Real.pi * n) =
        (a - b) - 2 * Real.pi * ((m - n : ℤ) : ℝ) := by push_cast; ring
    rw [hd]
    have hmn : m = n ↔ m - n = 0 := sub_eq_zero.symm
    rw [hmn]
    have r1 : (a - b) - 2 * Real.pi * ((m - n : ℤ) : ℝ) < 2 * Real.pi := by rw [← hd]; linarith
    have r2 : -(2 * Real.pi) < (a - b) - 2 * Real.pi * ((m - n : ℤ) : ℝ) := by rw [← hd]; linarith
    generalize m - n = k at *
    constructor
    · intro h
      have h0 : 4 * Real.pi * ((k : ℝ) * (Real.pi * k - (a - b))) = 0 := by linear_combination h
      rcases mul_eq_zero.1 h0 with h1 | h1
      · linarith
      · rcases mul_eq_zero.1 h1 with h2 | h2
        · exact .inl (by exact_mod_cast h2)
        · by_cases hk0 : k = 0
          · exact .inl hk0
          right
          have hk1 : (k : ℝ) < 2 := by nlinarith
          have hk2 : (-2 : ℝ) < k := by nlinarith
          have hk1' : k < 2 := by exact_mod_cast hk1
          have hk2' : -2 < k := by exact_mod_cast hk2
          have hx : a - b = Real.pi * k := by linarith
          rw [hx, abs_mul, abs_of_pos hpi]
          have hk : k = 1 ∨ k = -1 := by omega
          rcases hk with rfl | rfl <;> norm_num
    · rintro (rfl | h)
      · push_cast; ring
      · rcases (abs_eq hpi.le).1 h with h | h
        · rw [h] at r1 r2 ⊢
          have hk1 : (k : ℝ) < 2 := by nlinarith
          have hk2 : (-1 : ℝ) < k := by nlinarith
          have hk1' : k < 2 := by exact_mod_cast hk1
          have hk2' : -1 < k := by exact_mod_cast hk2
          have hk : k = 0 ∨ k = 1 := by omega
          rcases hk with rfl | rfl <;> push_cast <;> ring
        · rw [h] at r1 r2 ⊢
          have hk1 : (k : ℝ) < 1 := by nlinarith
          have hk2 : (-2 : ℝ) < k := by nlinarith
          have hk1' : k < 1 := by exact_mod_cast hk1
          have hk2' : -2 < k := by exact_mod_cast hk2
          have hk : k = 0 ∨ k = -1 := by omega
          rcases hk with rfl | rfl <;> push_cast <;> ring
  exact ⟨fun s t => key s.x s.y t.x t.y _ _, fun s t => key s.x s.y t.x t.y _ _⟩

/-- opposite headings: 0 and π turned by π -/
example : (turn Real.pi (stand 0)).euclid (turn Real.pi (stand Real.pi)) =
    (stand 0).euclid (stand Real.pi) := by
  have hpi := Real.pi_pos
  refine ((C77_euclid_iff _).1 _ _).2 (.inr ?_)
  unfold stand
  simp only
  rw [Angle.getAngle_ofRad_of_range (by constructor <;> linarith),
    Angle.getAngle_ofRad_of_range (by constructor <;> linarith), zero_sub, abs_neg,
    abs_of_pos hpi]

/-- C77 as stated is false for the Euclidean score: two objects that are 1/5 rad apart are more
than 6 apart in another frame. -/
theorem C77_score_false : ∃ (φ : ℝ) (s t : CtrvState), s.euclid t = 1 / 5 ∧
    6 < (turn φ s).euclid (turn φ t) := by
  have h3 := Real.pi_gt_d2
  have h4 := Real.pi_lt_d2
  refine ⟨1 / 5, stand (2 * Real.pi - 3 / 10), stand (2 * Real.pi - 1 / 10), ?_, ?_⟩
  · rw [euclid_stand (by constructor <;> linarith) (by constructor <;> linarith),
      show 2 * Real.pi - 3 / 10 - (2 * Real.pi - 1 / 10) = -(1 / 5) by ring, abs_neg,
      abs_of_pos (by norm_num)]
  · rw [turn_stand, turn_stand]
    have : stand (2 * Real.pi - 1 / 10 + 1 / 5) = stand (1 / 10) :=
      CtrvState.ext' rfl rfl rfl (Angle.ofRad_eq_iff.2 ⟨1, by push_cast; ring⟩) rfl
    rw [this, euclid_stand (by constructor <;> linarith) (by constructor <;> linarith),
      abs_of_pos (by linarith)]
    linarith

theorem getAngle_near_pi {x : ℝ} (hx : |x| ≤ 1) :
    (Angle.ofRad (Real.pi + x)).getAngle = Real.pi + x := by
  have h3 := Real.pi_gt_three
  have := abs_le.1 hx
  exact Angle.getAngle_ofRad_of_range ⟨by linarith [this.1], by linarith [this.2]⟩

theorem turn_sampleObj_cov (φ x : ℝ) (u : Uuid) : (turn φ (sampleObj u 0 x 1)).covariance = 1 := by
  show turnMatrix 5 φ * 1 * (turnMatrix 5 φ)ᵀ = 1
  rw [mul_one, (turnMatrix_orthogonal _).1]

theorem turn_sampleObj_yaw (φ : ℝ) {x : ℝ} (hx : |x| ≤ 1) (u : Uuid) :
    (turn φ (sampleObj u 0 (Real.pi + x) 1)).state.yaw = Angle.ofRad (Real.pi + (x + φ)) := by
  show Angle.ofRad ((Angle.ofRad (Real.pi + x)).getAngle + φ) = _
  rw [getAngle_near_pi hx, add_assoc]

theorem fuse_below (u : Uuid) : ∃ f, fusePair (sampleObj u 0 (Real.pi + -(3 / 10)) 1)
    (sampleObj u 0 (Real.pi + -(1 / 10)) 1) = .ok f ∧ f.state.yaw = Angle.ofRad (Real.pi - 1 / 5) := by
  obtain ⟨c1, c2⟩ := yawCut_bounds
  obtain ⟨f, hf, hfy⟩ := fusePair_same_yaw (sampleObj u 0 (Real.pi + -(3 / 10)) 1)
    (sampleObj u 0 (Real.pi + -(1 / 10)) 1) PosDef.one (by simp only [sampleObj])
  refine ⟨f, hf, hfy.trans ?_⟩
  show Angle.ofRad (1 / 2 * (rotateHeading (Angle.ofRad (Real.pi + -(3 / 10))).getAngle +
    rotateHeading (Angle.ofRad (Real.pi + -(1 / 10))).getAngle)) = _
  rw [getAngle_near_pi (by rw [abs_le]; norm_num), getAngle_near_pi (by rw [abs_le]; norm_num)]
  unfold rotateHeading
  rw [if_neg (by linarith), if_neg (by linarith)]
  congr 1
  ring

theorem fuse_across (u : Uuid) : ∃ f,
    fusePair (turn (1 / 5) (sampleObj u 0 (Real.pi + -(3 / 10)) 1))
      (turn (1 / 5) (sampleObj u 0 (Real.pi + -(1 / 10)) 1)) = .ok f ∧
    f.state.yaw = Angle.ofRad (2 * Real.pi - (yawCut - Real.pi)) := by
  obtain ⟨c1, c2⟩ := yawCut_bounds
  norm_num at c2
  obtain ⟨f, hf, hfy⟩ := fusePair_same_yaw (turn (1 / 5) (sampleObj u 0 (Real.pi + -(3 / 10)) 1))
    (turn (1 / 5) (sampleObj u 0 (Real.pi + -(1 / 10)) 1))
    (by rw [turn_sampleObj_cov]; exact PosDef.one) (by rw [turn_sampleObj_cov, turn_sampleObj_cov])
  refine ⟨f, hf, hfy.trans ?_⟩
  rw [turn_sampleObj_yaw _ (by rw [abs_le]; norm_num), turn_sampleObj_yaw _ (by rw [abs_le]; norm_num),
    getAngle_near_pi (by rw [abs_le]; norm_num), getAngle_near_pi (by rw [abs_le]; norm_num)]
  unfold rotateHeading
  rw [if_neg (by linarith), if_pos (by linarith), Angle.ofRad_eq_iff]
  exact ⟨-1, by push_cast; ring⟩

/-- C77 as stated is false for fusion: unit covariances, headings π − 3/10 and π − 1/10, and the
axes turned by 1/5. -/
theorem C77_fuse_false : ∃ (φ : ℝ) (t d f f' : DynObj CtrvState CtrvCov),
    t.covariance.PosDef ∧ d.covariance.PosDef ∧ fusePair t d = .ok f ∧
    fusePair (turn φ t) (turn φ d) = .ok f' ∧ f'.state.yaw ≠ (turn φ f).state.yaw := by
  have h3 := Real.pi_gt_three
  obtain ⟨c1, c2⟩ := yawCut_bounds
  norm_num at c2
  obtain ⟨f, hf, hy⟩ := fuse_below ⟨[1]⟩
  obtain ⟨f', hf', hy'⟩ := fuse_across ⟨[1]⟩
  refine ⟨1 / 5, _, _, f, f', PosDef.one, PosDef.one, hf, hf', ?_⟩
  have e : (turn (1 / 5) f).state.yaw = Angle.ofRad Real.pi := by
    show Angle.ofRad (f.state.yaw.getAngle + 1 / 5) = _
    rw [hy, Angle.ofRad_getAngle_add, sub_add_cancel]
  rw [e, hy']
  intro h
  have := congrArg Angle.getAngle h
  rw [west_yaw, Angle.getAngle_ofRad_of_range (by constructor <;> linarith)] at this
  linarith

/-- C77 as stated is false for prediction: a standing object heading π/2, unit covariance, dt = 0,
keeps its heading; with the axes turned by π/2 it does not. -/
theorem C77_ukf_false {chol : Chol} (hchol : IsLlt chol) :
    ∃ (φ α β κ : ℝ) (s s₁ s₂ : CtrvState) (P P₁ P₂ : CtrvCov), P.PosDef ∧
      ukfPredict chol s P 0 α β κ = .ok (s₁, P₁) ∧
      ukfPredict chol (turn φ s) (turnMatrix 5 φ * P * (turnMatrix 5 φ)ᵀ) 0 α β κ = .ok (s₂, P₂) ∧
      s₂.yaw ≠ (turn φ s₁).yaw := by
  have h3 := Real.pi_gt_d2
  have h4 := Real.pi_lt_d2
  obtain ⟨c1, c2⟩ := yawCut_bounds
  norm_num at c2
  have hq : (Angle.ofRad (Real.pi / 2)).getAngle = Real.pi / 2 :=
    Angle.getAngle_ofRad_of_range (by constructor <;> linarith)
  have hroot : √((1 : ℝ) ^ 2 * (((5 : ℕ) : ℝ) + -3) * 1) < 3 / 2 := by
    rw [Real.sqrt_lt' (by norm_num)]; norm_num
  have h1 := ukfPredict_zero hchol (s := stand (Real.pi / 2)) (Angle.valid_ofRad _)
    (P := (1 : Matrix (Fin 5) (Fin 5) ℝ)) PosDef.one (α := 1) (β := 0) (κ := -3) (by norm_num)
    (b := 0) fun v z v1 v2 v3 => by
      rw [add_zero]
      refine row_low v1 v2 fun k hk => ?_
      have := v3 k hk
      rw [show k = 3 from Fin.ext hk] at this ⊢
      rw [one_apply_eq, show (MotionModel.toVec (stand (Real.pi / 2)) : Fin 5 → ℝ) 3 = Real.pi / 2 from hq]
        at this
      have := abs_le.1 this
      constructor <;> linarith [this.1, this.2]
  rw [add_zero, MotionLaws.ofVec_toVec _ (show MotionLaws.Valid (stand (Real.pi / 2)) from
    Angle.valid_ofRad _)] at h1
  obtain ⟨s₂, P₂, h2, hy⟩ := west_predict hchol (α := 1) (β := 0) (κ := -3) (by norm_num) (by norm_num)
  refine ⟨Real.pi / 2, 1, 0, -3, _, _, s₂, 1, 1, P₂, PosDef.one, h1, ?_, ?_⟩
  · rw [mul_one, (turnMatrix_orthogonal _).1, turn_stand, add_halves]
    exact h2
  · rw [turn_stand, add_halves, hy]
    show _ ≠ Angle.ofRad Real.pi
    intro h
    have := congrArg Angle.getAngle h
    norm_num at this
    rw [west_yaw, Angle.getAngle_ofRad_of_range (by constructor <;> linarith)] at this
    linarith

/-! ## C78: the unit of length -/

/-- C78, motion -/
theorem C78_next (k t : ℝ) :
    (∀ s : CtrvState, (rescale k s).next t = rescale k (s.next t)) ∧
    (∀ s : CtraState, (rescale k s).next t = rescale k (s.next t)) :=
  ⟨fun s => CtrvState.next_rescale k s t, fun s => CtraState.next_rescale k s t⟩

/-- C78, prediction: predicting in another unit of length is converting the prediction. -/
theorem C78_predict {chol : Chol} (hchol : IsLlt chol) {k : ℝ} (hk : 0 < k) (dt α β κ : ℝ) :
    (∀ (s : CtrvState) (P : CtrvCov), P.PosDef →
      ukfPredict chol (rescale k s) (unitMatrix 5 k * P * (unitMatrix 5 k)ᵀ) dt α β κ =
        onResult (fun y => (rescale k y.1, unitMatrix 5 k * y.2 * (unitMatrix 5 k)ᵀ))
          (ukfPredict chol s P dt α β κ)) ∧
    (∀ (s : CtraState) (P : CtraCov), P.PosDef →
      ukfPredict chol (rescale k s) (unitMatrix 6 k * P * (unitMatrix 6 k)ᵀ) dt α β κ =
        onResult (fun y => (rescale k y.1, unitMatrix 6 k * y.2 * (unitMatrix 6 k)ᵀ))
          (ukfPredict chol s P dt α β κ)) :=
  ⟨fun s _ hP => ukfPredict_rescale hchol hk s hP dt α β κ,
    fun s _ hP => ukfPredict_rescale hchol hk s hP dt α β κ⟩

/-- C78, fusion -/
theorem C78_fuse {k : ℝ} (hk : k ≠ 0) :
    (∀ t d : DynObj CtrvState CtrvCov,
      fusePair (rescale k t) (rescale k d) = onResult (rescale k) (fusePair t d)) ∧
    (∀ t d : DynObj CtraState CtraCov,
      fusePair (rescale k t) (rescale k d) = onResult (rescale k) (fusePair t d)) :=
  ⟨fun t d => fusePair_rescale hk t d, fun t d => fusePair_rescale hk t d⟩

/-- C78, Mahalanobis score: it has no unit. -/
theorem C78_mahalanobis {k : ℝ} (hk : k ≠ 0) :
    (∀ (s t : CtrvState) (P : CtrvCov),
      (rescale k s).mahalanobis (unitMatrix 5 k * P * (unitMatrix 5 k)ᵀ) (rescale k t) =
        s.mahalanobis P t) ∧
    (∀ (s t : CtraState) (P : CtraCov),
      (rescale k s).mahalanobis (unitMatrix 6 k * P * (unitMatrix 6 k)ᵀ) (rescale k t) =
        s.mahalanobis P t) := by
  constructor <;> intro s t P
  · unfold CtrvState.mahalanobis
    rw [(pose_rescaled_cov k).1]
    exact poseMahalanobis_linear (unitPose_inv hk) _ (pose_rescaled_sub k)
  · unfold CtraState.mahalanobis
    rw [(pose_rescaled_cov k).2]
    exact poseMahalanobis_linear (unitPose_inv hk) _ (pose_rescaled_sub k)

/-- C78, Euclidean score, the part that holds: between objects with the same heading it is a
length.

Missing: different headings (`C78_euclid_false`). -/
theorem C78_euclid_partial {k : ℝ} (hk : 0 ≤ k) :
    (∀ s t : CtrvState, s.yaw.getAngle = t.yaw.getAngle →
      (rescale k s).euclid (rescale k t) = k * s.euclid t) ∧
    (∀ s t : CtraState, s.yaw.getAngle = t.yaw.getAngle →
      (rescale k s).euclid (rescale k t) = k * s.euclid t) := by
  have key : ∀ x y u v a : ℝ, poseDistance ![k * x, k * y, a] ![k * u, k * v, a] =
      k * poseDistance ![x, y, a] ![u, v, a] := by
    intro x y u v a
    unfold poseDistance
    simp only [dotProduct, Fin.sum_univ_three, Pi.sub_apply, cons_val]
    rw [show (k * x - k * u) * (k * x - k * u) + (k * y - k * v) * (k * y - k * v) +
        (a - a) * (a - a) = k ^ 2 * ((x - u) * (x - u) + (y - v) * (y - v) + (a - a) * (a - a)) by ring,
      Real.sqrt_mul (sq_nonneg k), Real.sqrt_sq hk]
  constructor <;> intro s t h
  · show poseDistance ![k * s.x, k * s.y, s.yaw.getAngle] ![k * t.x, k * t.y, t.yaw.getAngle] = _
    rw [← h, key]
    unfold CtrvState.euclid CtrvState.pose
    rw [h]
  · show poseDistance ![k * s.x, k * s.y, s.yaw.getAngle] ![k * t.x, k * t.y, t.yaw.getAngle] = _
    rw [← h, key]
    unfold CtraState.euclid CtraState.pose
    rw [h]

/-- C78, Euclidean score: it is multiplied by the factor exactly between objects with the same heading
(unless the factor is 1). -/
theorem C78_euclid_iff {k : ℝ} (hk : 0 ≤ k) :
    (∀ s t : CtrvState, (rescale k s).euclid (rescale k t) = k * s.euclid t ↔
      k = 1 ∨ s.yaw.getAngle = t.yaw.getAngle) ∧
    (∀ s t : CtraState, (rescale k s).euclid (rescale k t) = k * s.euclid t ↔
      k = 1 ∨ s.yaw.getAngle = t.yaw.getAngle) := by
  have key : ∀ x y u v a b : ℝ, poseDistance ![k * x, k * y, a] ![k * u, k * v, b] =
      k * poseDistance ![x, y, a] ![u, v, b] ↔ k = 1 ∨ a = b := by
    intro x y u v a b
    unfold poseDistance
    simp only [dotProduct, Fin.sum_univ_three, Pi.sub_apply, cons_val]
    have e : k * √((x - u) * (x - u) + (y - v) * (y - v) + (a - b) * (a - b)) =
        √(k ^ 2 * ((x - u) * (x - u) + (y - v) * (y - v) + (a - b) * (a - b))) := by
      rw [Real.sqrt_mul (sq_nonneg k), Real.sqrt_sq hk]
    rw [e, Real.sqrt_inj (add_nonneg (add_nonneg (mul_self_nonneg _) (mul_self_nonneg _))
      (mul_self_nonneg _)) (mul_nonneg (sq_nonneg k) (add_nonneg (add_nonneg (mul_self_nonneg _)
      (mul_self_nonneg _)) (mul_self_nonneg _)))]
    constructor
    · intro h
      have h0 : (1 - k) * ((1 + k) * (a - b) ^ 2) = 0 := by linear_combination h
      rcases mul_eq_zero.1 h0 with h1 | h1
      · exact .inl (by linarith)
      · rcases mul_eq_zero.1 h1 with h2 | h2
        · linarith
        · exact .inr (sub_eq_zero.1 (pow_eq_zero_iff (two_ne_zero) |>.1 h2))
    · rintro (rfl | rfl) <;> ring
  exact ⟨fun s t => key s.x s.y t.x t.y _ _, fun s t => key s.x s.y t.x t.y _ _⟩

/-- both sides of `C78_euclid_iff` occur -/
example : (rescale 2 (stand 1)).euclid (rescale 2 (stand 1)) = 2 * (stand 1).euclid (stand 1) ∧
    (rescale 2 (stand 1)).euclid (rescale 2 (stand 2)) ≠ 2 * (stand 1).euclid (stand 2) := by
  have h3 := Real.pi_gt_three
  refine ⟨((C78_euclid_iff (by norm_num)).1 _ _).2 (.inr rfl), fun h => ?_⟩
  rcases ((C78_euclid_iff (by norm_num)).1 _ _).1 h with h | h
  · norm_num at h
  · unfold stand at h
    simp only at h
    rw [Angle.getAngle_ofRad_of_range (by constructor <;> linarith),
      Angle.getAngle_ofRad_of_range (by constructor <;> linarith)] at h
    norm_num at h

/-- C78 as stated is false for the Euclidean score, which adds squared lengths and squared angles:
which of two detections is nearer depends on the unit of length. -/
theorem C78_euclid_false : ∃ (k : ℝ) (s t t' : CtrvState), 0 < k ∧ s.euclid t < s.euclid t' ∧
    (rescale k s).euclid (rescale k t') < (rescale k s).euclid (rescale k t) := by
  have h3 := Real.pi_gt_three
  have h0 : (Angle.ofRad 0).getAngle = 0 := Angle.getAngle_ofRad_of_range ⟨le_rfl, by linarith⟩
  have h1 : (Angle.ofRad 1).getAngle = 1 := Angle.getAngle_ofRad_of_range ⟨zero_le_one, by linarith⟩
  have key : ∀ x y a b : ℝ, (⟨x, 0, 0, Angle.ofRad a, 0⟩ : CtrvState).euclid ⟨y, 0, 0, Angle.ofRad b, 0⟩ =
      √((x - y) ^ 2 + ((Angle.ofRad a).getAngle - (Angle.ofRad b).getAngle) ^ 2) := by
    intro x y a b
    unfold CtrvState.euclid poseDistance CtrvState.pose
    simp [dotProduct, Fin.sum_univ_three, pow_two]
  refine ⟨10, stand 0, ⟨1 / 2, 0, 0, Angle.ofRad 0, 0⟩, ⟨0, 0, 0, Angle.ofRad 1, 0⟩, by norm_num, ?_, ?_⟩
  · unfold stand
    rw [key, key, h0, h1]
    exact Real.sqrt_lt_sqrt (by norm_num) (by norm_num)
  · have e : ∀ x ψ : ℝ, rescale 10 (⟨x, 0, 0, Angle.ofRad ψ, 0⟩ : CtrvState) =
        ⟨10 * x, 0, 0, Angle.ofRad ψ, 0⟩ := fun x ψ =>
      CtrvState.ext' rfl (mul_zero _) (mul_zero _) rfl rfl
    unfold stand
    rw [e, e, e, key, key, h0, h1]
    exact Real.sqrt_lt_sqrt (by norm_num) (by norm_num)

end Mot.Props
