import Verif.Proofs.TimeFrames
import Verif.Props.Frames
import Verif.Props.Clustering
/-!
# Properties about the origin and the unit of time (C112)

In exact real arithmetic.  Also the periods and histories of C76 and C78.
-/

namespace Mot.Props

open Mot Spec Manager Matrix

/-! ## C112: the origin of time -/

/-- C112, prediction: by a clock that is `c` ahead, the prediction is the same, whatever the
propagators. -/
theorem C112_predict_later {S₁ C₁ S₂ C₂ : Type} (c time : ℝ) (p₁ : Propagator S₁ C₁)
    (p₂ : Propagator S₂ C₂) (o : Obj2 S₁ C₁ S₂ C₂) :
    predict2 (later c o) (time + c) p₁ p₂ = onResult (later c) (predict2 o time p₁ p₂) :=
  predict2_later c time p₁ p₂ o

/-- C112, scores and association: they do not depend on timestamps at all. -/
theorem C112_scores_later (solve : Solver) (gate : FP → Bool) {metric : MotObj → MotObj → Option FP}
    (hm : IsRoundedMetric metric) (c c' : ℝ) :
    (∀ t d, metric (later c t) (later c' d) = metric t d) ∧
    ∀ ts ds, associateStep solve metric gate (ts.map (later c)) (ds.map (later c)) =
      associateStep solve metric gate ts ds := by
  have h : ∀ c c' t d, metric (later c t) (later c' d) = metric t d := by
    intro c c' t d
    rcases hm with ⟨r, rfl⟩ | ⟨r, rfl⟩ <;> rcases t with t | t <;> rcases d with d | d <;> rfl
  refine ⟨h c c', fun ts ds => ?_⟩
  unfold associateStep
  rw [score_hom (isHom_later c) (h c c)]

/-- C112, fusion -/
theorem C112_fuse_later (c : ℝ) (t d : MotObj) :
    ciVisitor (later c t) (later c d) = onResult (later c) (ciVisitor t d) :=
  ciVisitor_later c t d

/-- C112, clusters: the same detections, by the other clock, in the same clusters in the same order,
with the same centroids. -/
theorem C112_cluster_later {C C' : Type} (c r : ℝ) (ds : List (Obj2 CtrvState C CtraState C')) :
    List.Forall₂ (fun k k' => k'.detections.entries =
        k.detections.entries.map (fun e => (e.1, later c e.2)) ∧ k'.centroid = k.centroid)
      (clusterDetectionsDefault ds r) (clusterDetectionsDefault (ds.map (later c)) r) := by
  classical
  have h := clusterDetections_replaced (g := later c) (δ := Obj2 CtrvState C CtraState C')
    (by rintro (d | d) <;> rfl) (by rintro P (d | d) <;> rfl) (by rintro (d | d) <;> rfl)
    (within := fun P d => decide (Clusterable.sqDist P d < r))
    (by
      intro P d
      have : Clusterable.sqDist P (later c d) = Clusterable.sqDist P d := by
        rcases d with d | d <;> rfl
      simp only [this]) ds
  refine List.Forall₂.imp (fun k k' hk => ⟨hk.2, ?_⟩) h
  unfold ClusterOf.centroid
  rw [hk.1, hk.2, List.isEmpty_map, List.length_map]

/-- the period that predicts with the two propagators -/
noncomputable def periodAt (solve : Solver) (metric : MotObj → MotObj → Option FP) (gate : FP → Bool)
    (p₁ : Propagator CtrvState CtrvCov) (p₂ : Propagator CtraState CtraCov) (time : ℝ)
    (ds : List MotObj) : Act (Manager MotObj) AssociationMap :=
  period solve metric gate ciVisitor makeTrack2 (fun o => predict2 o time p₁ p₂) ds

/-- C112, one period and a whole history of periods: by a clock that is `c` ahead, they end in the
same way with the same association maps, and the manager has the same tracks, by the other clock. -/
theorem C112_period_later (solve : Solver) {metric : MotObj → MotObj → Option FP}
    (hm : IsRoundedMetric metric) (gate : FP → Bool) (p₁ : Propagator CtrvState CtrvCov)
    (p₂ : Propagator CtraState CtraCov) (c : ℝ) (m : Manager MotObj) :
    (∀ time ds, periodAt solve metric gate p₁ p₂ (time + c) (ds.map (later c)) (onTracks (later c) m) =
      (onTracks (later c) (periodAt solve metric gate p₁ p₂ time ds m).1,
        (periodAt solve metric gate p₁ p₂ time ds m).2)) ∧
    ∀ l, inTurn (periodAt solve metric gate p₁ p₂) (l.map fun e => (e.1 + c, e.2.map (later c)))
        (onTracks (later c) m) =
      (onTracks (later c) (inTurn (periodAt solve metric gate p₁ p₂) l m).1,
        (inTurn (periodAt solve metric gate p₁ p₂) l m).2) := by
  have h : ∀ time ds, Equivariant (later c) (periodAt solve metric gate p₁ p₂ time ds)
      (periodAt solve metric gate p₁ p₂ (time + c) (ds.map (later c))) := fun time ds m =>
    period_hom (isHom_later c) solve (C112_scores_later solve gate hm c c).1 gate (ciVisitor_later c)
      (by rintro (t | t) <;> rfl) (fun o _ => predict2_later c time p₁ p₂ o)
      (fun o _ => predict2_later c time p₁ p₂ o)
  exact ⟨fun time ds => h time ds m, fun l => inTurn_hom (clock := (· + c)) h l m⟩

/-- C76, one period and a whole history of periods with the unscented transform: in shifted
coordinates they end in the same way with the same association maps, and the tracks are shifted. -/
theorem C76_period (solve : Solver) {metric : MotObj → MotObj → Option FP}
    (hm : IsRoundedMetric metric) (gate : FP → Bool) (chol : Chol) (α β κ p q : ℝ)
    (m : Manager MotObj) :
    (∀ time ds, periodAt solve metric gate (unscentedTransform chol α β κ)
        (unscentedTransform chol α β κ) time (ds.map (shift p q)) (onTracks (shift p q) m) =
      (onTracks (shift p q) (periodAt solve metric gate (unscentedTransform chol α β κ)
        (unscentedTransform chol α β κ) time ds m).1,
        (periodAt solve metric gate (unscentedTransform chol α β κ)
          (unscentedTransform chol α β κ) time ds m).2)) ∧
    ∀ l, inTurn (periodAt solve metric gate (unscentedTransform chol α β κ)
        (unscentedTransform chol α β κ)) (l.map fun e => (e.1, e.2.map (shift p q)))
        (onTracks (shift p q) m) =
      (onTracks (shift p q) (inTurn (periodAt solve metric gate (unscentedTransform chol α β κ)
        (unscentedTransform chol α β κ)) l m).1,
        (inTurn (periodAt solve metric gate (unscentedTransform chol α β κ)
          (unscentedTransform chol α β κ)) l m).2) := by
  have h : ∀ time ds, Equivariant (shift p q) (periodAt solve metric gate
      (unscentedTransform chol α β κ) (unscentedTransform chol α β κ) time ds)
      (periodAt solve metric gate (unscentedTransform chol α β κ) (unscentedTransform chol α β κ) time
        (ds.map (shift p q))) := fun time ds m =>
    period_hom (isHom_shift_obj2 p q) solve (metric_shift hm p q) gate (ciVisitor_shift p q)
      (by rintro (t | t) <;> rfl) (fun o _ => C76_predict chol α β κ p q time o)
      (fun o _ => C76_predict chol α β κ p q time o)
  exact ⟨fun time ds => h time ds m, fun l => inTurn_hom (clock := id) h l m⟩

/-! ## C112: the unit of time -/

/-- C112, motion: unless a yaw rate is taken for zero in only one of the units, the next state in
the other unit is the next state converted; `k` may be negative (time running backwards). -/
theorem C112_next {k : ℝ} (hk : k ≠ 0) (t : ℝ) (n : ProcessNoise) :
    (∀ s : CtrvState, RateKept k s.yawRate →
      (retime k s).next (k * t) = retime k (s.next t) ∧
      (retime k s).nextNoisy (k * t) (retime k n) = retime k (s.nextNoisy t n)) ∧
    (∀ s : CtraState, RateKept k s.yawRate →
      (retime k s).next (k * t) = retime k (s.next t) ∧
      (retime k s).nextNoisy (k * t) (retime k n) = retime k (s.nextNoisy t n)) := by
  have e2 : ∀ x : ℝ, x / k ^ 2 * (k * t) = x * t / k := fun x => by field_simp
  have e3 : ∀ x : ℝ, 1 / 2 * (x / k ^ 2) * (k * t) ^ 2 = 1 / 2 * x * t ^ 2 := fun x => by field_simp
  have e4 : ∀ x y : ℝ, 1 / 2 * (x / k ^ 2) * y * (k * t) ^ 2 = 1 / 2 * x * y * t ^ 2 :=
    fun x y => by field_simp
  refine ⟨fun s hs => ⟨CtrvState.next_retime hk hs t, ?_⟩,
    fun s hs => ⟨CtraState.next_retime hk hs t, ?_⟩⟩
  · unfold CtrvState.nextNoisy
    rw [CtrvState.next_retime hk hs]
    refine CtrvState.ext' ?_ ?_ ?_ ?_ ?_
    · exact congrArg (_ + ·) (e4 _ _)
    · exact congrArg (_ + ·) (e4 _ _)
    · show (s.next t).v / k + n.lin / k ^ 2 * (k * t) = ((s.next t).v + n.lin * t) / k
      rw [e2, add_div]
    · show _root_.Mot.Angle.add _ (Angle.ofRad (1 / 2 * (n.ang / k ^ 2) * (k * t) ^ 2)) = _
      rw [e3]; rfl
    · show (s.next t).yawRate / k + n.ang / k ^ 2 * (k * t) = ((s.next t).yawRate + n.ang * t) / k
      rw [e2, add_div]
  · unfold CtraState.nextNoisy
    rw [CtraState.next_retime hk hs]
    refine CtraState.ext' ?_ ?_ ?_ ?_ ?_ ?_
    · exact congrArg (_ + ·) (e4 _ _)
    · exact congrArg (_ + ·) (e4 _ _)
    · show (s.next t).v / k + n.lin / k ^ 2 * (k * t) = ((s.next t).v + n.lin * t) / k
      rw [e2, add_div]
    · show _root_.Mot.Angle.add _ (Angle.ofRad (1 / 2 * (n.ang / k ^ 2) * (k * t) ^ 2)) = _
      rw [e3]; rfl
    · show (s.next t).yawRate / k + n.ang / k ^ 2 * (k * t) = ((s.next t).yawRate + n.ang * t) / k
      rw [e2, add_div]
    · exact (add_div _ _ _).symm

/-- C112, prediction, for positive definite covariances: unless the yaw rate of the object or of one
of its sigma points is taken for zero in only one of the units, the prediction in the other unit is
the prediction converted. -/
theorem C112_predict {chol : Chol} (hchol : IsLlt chol) {k : ℝ} (hk : 0 < k) {α β : ℝ} (κ time : ℝ)
    {o : MotObj} (ho : SameTurns chol α β k o) :
    predict2 (retime k o) (k * time) (unscentedTransform chol α β κ) (unscentedTransform chol α β κ) =
      onResult (retime k) (predict2 o time (unscentedTransform chol α β κ)
        (unscentedTransform chol α β κ)) :=
  predict2_retime hchol hk κ time ho

/-- C112, fusion, for all objects -/
theorem C112_fuse {k : ℝ} (hk : k ≠ 0) (t d : MotObj) :
    ciVisitor (retime k t) (retime k d) = onResult (retime k) (ciVisitor t d) :=
  ciVisitor_retime hk t d

/-- C112, scores and association: they have no time in them. -/
theorem C112_scores (solve : Solver) (gate : FP → Bool) {metric : MotObj → MotObj → Option FP}
    (hm : IsRoundedMetric metric) (k : ℝ) :
    (∀ t d, metric (retime k t) (retime k d) = metric t d) ∧
    ∀ ts ds, associateStep solve metric gate (ts.map (retime k)) (ds.map (retime k)) =
      associateStep solve metric gate ts ds := by
  have h : ∀ t d, metric (retime k t) (retime k d) = metric t d := by
    intro t d
    rcases hm with ⟨r, rfl⟩ | ⟨r, rfl⟩
    · rcases t with t | t <;> rcases d with d | d <;> rfl
    · rcases t with t | t <;> rcases d with d | d
      · show some (r ((retime k t.state).mahalanobis _ (retime k d.state))) = _
        unfold CtrvState.mahalanobis
        have : CtrvCov.pose (retime k t).covariance = _ := (pose_retimed_cov k).1 t.covariance
        rw [this]; rfl
      · rfl
      · rfl
      · show some (r ((retime k t.state).mahalanobis _ (retime k d.state))) = _
        unfold CtraState.mahalanobis
        have : CtraCov.pose (retime k t).covariance = _ := (pose_retimed_cov k).2 t.covariance
        rw [this]; rfl
  refine ⟨h, fun ts ds => ?_⟩
  unfold associateStep
  rw [score_hom (isHom_retime k) h]

/-- C112, one cycle: no condition on yaw rates, since nothing is predicted. -/
theorem C112_cycle (solve : Solver) {metric : MotObj → MotObj → Option FP}
    (hm : IsRoundedMetric metric) (gate : FP → Bool) {k : ℝ} (hk : k ≠ 0) (ds : List MotObj)
    (m : Manager MotObj) :
    cycle solve metric gate ciVisitor (ds.map (retime k)) (onTracks (retime k) m) =
      (onTracks (retime k) (cycle solve metric gate ciVisitor ds m).1,
        (cycle solve metric gate ciVisitor ds m).2) ∧
    ∀ a, addUnassociated makeTrack2 a (ds.map (retime k)) (onTracks (retime k) m) =
      (onTracks (retime k) (addUnassociated makeTrack2 a ds m).1,
        (addUnassociated makeTrack2 a ds m).2) := by
  refine ⟨cycle_hom (isHom_retime k) solve (C112_scores solve gate hm k).1 gate
    (ciVisitor_retime hk) ds m, fun a => addUnassociated_hom (isHom_retime k) ?_ a ds m⟩
  rintro (t | t) <;> rfl

/-- C112, one period: with the objects it predicts as in `C112_predict`, it ends in the same way with
the same association map, and the tracks of the manager are converted. -/
theorem C112_period (solve : Solver) {metric : MotObj → MotObj → Option FP}
    (hm : IsRoundedMetric metric) (gate : FP → Bool) {chol : Chol} (hchol : IsLlt chol) {k : ℝ}
    (hk : 0 < k) (α β κ time : ℝ) {ds : List MotObj} {m : Manager MotObj}
    (ho : ∀ o ∈ ds ++ m.getAllTracks, SameTurns chol α β k o) :
    periodAt solve metric gate (unscentedTransform chol α β κ) (unscentedTransform chol α β κ)
        (k * time) (ds.map (retime k)) (onTracks (retime k) m) =
      (onTracks (retime k) (periodAt solve metric gate (unscentedTransform chol α β κ)
        (unscentedTransform chol α β κ) time ds m).1,
        (periodAt solve metric gate (unscentedTransform chol α β κ)
          (unscentedTransform chol α β κ) time ds m).2) :=
  period_hom (isHom_retime k) solve (C112_scores solve gate hm k).1 gate
    (ciVisitor_retime hk.ne') (by rintro (t | t) <;> rfl)
    (fun o h => predict2_retime hchol hk κ time (ho o (List.mem_append_left _ h)))
    (fun o h => predict2_retime hchol hk κ time (ho o (List.mem_append_right _ h)))

/-- C112 without the condition on yaw rates is false: a yaw rate of half the smallest normal `double`
is taken for zero, but not when time is measured in units four times as long, and then the object
comes back to where it was instead of moving on. -/
theorem C112_next_false : ∃ (k t : ℝ) (s : CtrvState), 0 < k ∧ 0 < t ∧
    (s.next t).x = t ∧ ((retime k s).next (k * t)).x = 0 := by
  have hd := dblMin_pos
  have h3 := Real.pi_pos
  have h0 : (Angle.ofRad 0).getAngle = 0 := Angle.getAngle_ofRad_of_range ⟨le_rfl, by linarith⟩
  have ht : 0 < Real.pi / (dblMin / 2) := by positivity
  refine ⟨1 / 4, Real.pi / (dblMin / 2), ⟨0, 0, 1, Angle.ofRad 0, dblMin / 2⟩, by norm_num, ht, ?_, ?_⟩
  · rw [(CtrvState.next_straight (by
      rw [unitsEq_zero_iff, abs_of_pos (half_pos hd)]; exact half_lt_self hd) _).1]
    simp only [h0, Real.cos_zero]
    ring
  · have hr : (retime (1 / 4) (⟨0, 0, 1, Angle.ofRad 0, dblMin / 2⟩ : CtrvState)).yawRate =
        2 * dblMin := by
      show dblMin / 2 / (1 / 4) = _
      ring
    have hy : (retime (1 / 4) (⟨0, 0, 1, Angle.ofRad 0, dblMin / 2⟩ : CtrvState)).yaw =
        Angle.ofRad 0 := rfl
    have hx : (retime (1 / 4) (⟨0, 0, 1, Angle.ofRad 0, dblMin / 2⟩ : CtrvState)).x = 0 := rfl
    rw [(CtrvState.next_turn (by
      rw [unitsEq_zero_iff, hr, abs_of_pos (by linarith)]; linarith) _).1, hr, hy, hx, h0,
      show (0 : ℝ) + 2 * dblMin * (1 / 4 * (Real.pi / (dblMin / 2))) = Real.pi by field_simp; ring,
      Real.sin_pi, Real.sin_zero]
    ring

/-- yaw rates that are kept: all that are not tiny in both units, and zero -/
theorem C112_rateKept {k ω : ℝ} (h : ω = 0 ∨ dblMin ≤ |ω| ∧ dblMin * |k| ≤ |ω| ∧ k ≠ 0) :
    RateKept k ω := by
  unfold RateKept
  rcases h with rfl | ⟨h1, h2, h3⟩
  · rw [zero_div]
  · rw [abs_div, div_lt_iff₀ (abs_pos.2 h3)]
    exact ⟨fun h => absurd h (not_lt.2 h2), fun h => absurd h (not_lt.2 h1)⟩

/-- C112, clusters: their default distance adds squared speeds to squared lengths, so whether two
detections are put together depends on the unit of time. -/
theorem C112_cluster_false : ∃ (k r : ℝ) (a b : DynObj CtrvState CtrvCov), 0 < k ∧ 0 < r ∧
    (clusterDetectionsDefault [a, b] r).length = 1 ∧
    (clusterDetectionsDefault [retime k a, retime k b] r).length = 2 := by
  have e : ∀ x : ℝ, Reading.dist ⟨0, 0, x, (Angle.ofRad 0).getAngle, 0⟩
      ⟨0, 0, 0, (Angle.ofRad 0).getAngle, 0⟩ = |x| := fun x => by
    simp [Reading.dist, Real.sqrt_sq_eq_abs]
  refine ⟨1 / 10, 4, ⟨7, ⟨0, 0, 0, Angle.ofRad 0, 0⟩, 1, ⟨[1]⟩, .unknown⟩,
    ⟨7, ⟨0, 0, 1, Angle.ofRad 0, 0⟩, 1, ⟨[2]⟩, .unknown⟩, by norm_num, by norm_num, ?_, ?_⟩
  · rw [(C62_pair_partial _ _ _).1]
    show Reading.dist ⟨0, 0, 1, (Angle.ofRad 0).getAngle, 0⟩
      ⟨0, 0, 0, (Angle.ofRad 0).getAngle, 0⟩ < _
    rw [e, Real.lt_sqrt (by positivity)]
    norm_num
  · rw [(C62_pair_partial _ _ _).2]
    show _ ≤ Reading.dist ⟨0, 0, 1 / (1 / 10), (Angle.ofRad 0).getAngle, 0 / (1 / 10)⟩
      ⟨0, 0, 0 / (1 / 10), (Angle.ofRad 0).getAngle, 0 / (1 / 10)⟩
    rw [zero_div, e, Real.sqrt_le_left (by positivity)]
    norm_num

/-! ## C78: whole periods -/

/-- C78, motion with noise: the linear acceleration is a length per time squared. -/
theorem C78_nextNoisy (k t : ℝ) (n : ProcessNoise) :
    (∀ s : CtrvState, (rescale k s).nextNoisy t ⟨k * n.lin, n.ang⟩ = rescale k (s.nextNoisy t n)) ∧
    (∀ s : CtraState, (rescale k s).nextNoisy t ⟨k * n.lin, n.ang⟩ = rescale k (s.nextNoisy t n)) := by
  constructor <;> intro s
  · unfold CtrvState.nextNoisy
    rw [CtrvState.next_rescale]
    refine CtrvState.ext' ?_ ?_ ?_ rfl rfl
    · show k * (s.next t).x + 1 / 2 * (k * n.lin) * Real.cos s.yaw.getAngle * t ^ 2 = k * (_ + _)
      ring
    · show k * (s.next t).y + 1 / 2 * (k * n.lin) * Real.sin s.yaw.getAngle * t ^ 2 = k * (_ + _)
      ring
    · show k * (s.next t).v + k * n.lin * t = k * (_ + _)
      ring
  · unfold CtraState.nextNoisy
    rw [CtraState.next_rescale]
    refine CtraState.ext' ?_ ?_ ?_ rfl rfl ?_
    · show k * (s.next t).x + 1 / 2 * (k * n.lin) * Real.cos s.yaw.getAngle * t ^ 2 = k * (_ + _)
      ring
    · show k * (s.next t).y + 1 / 2 * (k * n.lin) * Real.sin s.yaw.getAngle * t ^ 2 = k * (_ + _)
      ring
    · show k * (s.next t).v + k * n.lin * t = k * (_ + _)
      ring
    · show k * (s.next t).a + k * n.lin = k * (_ + _)
      ring

/-- C78, one cycle and one period with the Mahalanobis score, for positive definite covariances of the
objects that are predicted: they end in the same way with the same association map, and the tracks of
the manager are converted. -/
theorem C78_period (solve : Solver) {metric : MotObj → MotObj → Option FP}
    (hm : ∃ r : Option ℝ → FP, metric =
      mahalanobisScore (fun s P t => r (s.mahalanobis P t)) fun s P t => r (s.mahalanobis P t))
    (gate : FP → Bool) {k : ℝ} (hk : 0 < k) (ds : List MotObj) (m : Manager MotObj) :
    cycle solve metric gate ciVisitor (ds.map (rescale k)) (onTracks (rescale k) m) =
      (onTracks (rescale k) (cycle solve metric gate ciVisitor ds m).1,
        (cycle solve metric gate ciVisitor ds m).2) ∧
    ∀ {chol : Chol}, IsLlt chol → ∀ α β κ time : ℝ, (∀ o ∈ ds ++ m.getAllTracks, CovPosDef o) →
      periodAt solve metric gate (unscentedTransform chol α β κ) (unscentedTransform chol α β κ)
          time (ds.map (rescale k)) (onTracks (rescale k) m) =
        (onTracks (rescale k) (periodAt solve metric gate (unscentedTransform chol α β κ)
          (unscentedTransform chol α β κ) time ds m).1,
          (periodAt solve metric gate (unscentedTransform chol α β κ)
            (unscentedTransform chol α β κ) time ds m).2) := by
  have h : ∀ t d, metric (rescale k t) (rescale k d) = metric t d := by
    obtain ⟨r, rfl⟩ := hm
    intro t d
    rcases t with t | t <;> rcases d with d | d
    · show some (r ((rescale k t.state).mahalanobis (rescale k t).covariance (rescale k d.state))) = _
      have : (rescale k t.state).mahalanobis (rescale k t).covariance (rescale k d.state) = _ :=
        (C78_mahalanobis hk.ne').1 t.state d.state t.covariance
      rw [this]; rfl
    · rfl
    · rfl
    · show some (r ((rescale k t.state).mahalanobis (rescale k t).covariance (rescale k d.state))) = _
      have : (rescale k t.state).mahalanobis (rescale k t).covariance (rescale k d.state) = _ :=
        (C78_mahalanobis hk.ne').2 t.state d.state t.covariance
      rw [this]; rfl
  refine ⟨cycle_hom (isHom_rescale k) solve h gate (ciVisitor_rescale hk.ne') ds m, ?_⟩
  intro chol hchol α β κ time ho
  exact period_hom (isHom_rescale k) solve h gate (ciVisitor_rescale hk.ne')
    (by rintro (t | t) <;> rfl)
    (fun o h => predict2_rescale hchol hk α β κ time (ho o (List.mem_append_left _ h)))
    (fun o h => predict2_rescale hchol hk α β κ time (ho o (List.mem_append_right _ h)))

/-- the sample objects fulfil the conditions of `C112_period` for a change from minutes to seconds -/
theorem sameTurns_sample {chol : Chol} (hchol : IsLlt chol) (u : Fin 256) :
    SameTurns chol 1 2 60 (motCtrv u) ∧ SameTurns chol 1 2 60 (motCtra u) := by
  have one : ∀ n, chol n 1 = 1 := fun n => by
    have := hchol.diagonal (n := n) (d := fun _ => 1) (fun _ => one_pos)
    simpa using this
  have hd1 : dblMin * 60 ≤ 1 / 2 := by
    unfold dblMin
    rw [div_mul_eq_mul_div, div_le_div_iff₀ (by positivity) (by norm_num)]
    have h7 : (2 : ℝ) ^ 7 ≤ 2 ^ 1022 := pow_le_pow_right₀ (by norm_num) (by norm_num)
    rw [one_mul (2 ^ 1022 : ℝ)]
    exact (show (1 : ℝ) * 60 * 2 ≤ 2 ^ 7 by norm_num).trans h7
  have hp := dblMin_pos
  have kept : ∀ ω : ℝ, 1 / 2 ≤ |ω| → RateKept 60 ω := fun ω h => by
    refine C112_rateKept (.inr ⟨by linarith, ?_, by norm_num⟩)
    rw [abs_of_pos (by norm_num : (0 : ℝ) < 60)]
    linarith
  have rates : ∀ (r c : ℝ), 2 ≤ r → c = 0 ∨ c = 1 → RateKept 60 (1 + r * c) ∧ RateKept 60 (1 - r * c) := by
    rintro r c hr (rfl | rfl)
    · rw [mul_zero, add_zero, sub_zero]
      exact ⟨kept 1 (by norm_num), kept 1 (by norm_num)⟩
    · refine ⟨kept _ ?_, kept _ ?_⟩
      · rw [abs_of_pos (by linarith)]; linarith
      · rw [abs_of_neg (by linarith)]; linarith
  have hs : ∀ x : ℝ, 4 ≤ x → 2 ≤ √x := fun x hx =>
    Real.le_sqrt_of_sq_le (by linarith)
  refine ⟨⟨PosDef.one, kept 1 (by norm_num), fun j => ?_⟩, ⟨PosDef.one, kept 1 (by norm_num), fun j => ?_⟩⟩
  · refine rates _ _ (hs _ (by norm_num)) ?_
    show chol 5 1 4 j = 0 ∨ chol 5 1 4 j = 1
    rw [one, Matrix.one_apply]
    split
    · exact .inr rfl
    · exact .inl rfl
  · refine rates _ _ (hs _ (by norm_num)) ?_
    show chol 6 1 4 j = 0 ∨ chol 6 1 4 j = 1
    rw [one, Matrix.one_apply]
    split
    · exact .inr rfl
    · exact .inl rfl

/-- a prediction in minutes and in seconds -/
example : ∃ chol : Chol, IsLlt chol ∧ ∀ time,
    predict2 (retime 60 (motCtrv 1)) (60 * time) (unscentedTransform chol 1 2 1)
      (unscentedTransform chol 1 2 1) = onResult (retime 60)
        (predict2 (motCtrv 1) time (unscentedTransform chol 1 2 1) (unscentedTransform chol 1 2 1)) := by
  obtain ⟨chol, h⟩ := exists_llt
  exact ⟨chol, h, fun time => C112_predict h (by norm_num) 1 time (sameTurns_sample h 1).1⟩

example : IsRoundedMetric (mahalanobisScore (fun s P t => if (s.mahalanobis P t).isSome then .fin 0 else .nan)
    fun s P t => if (s.mahalanobis P t).isSome then .fin 0 else .nan) :=
  .inr ⟨fun x => if x.isSome then .fin 0 else .nan, rfl⟩

/-- the objects of `C112_period`: two detections and a manager with one track -/
example : ∃ chol : Chol, IsLlt chol ∧
    ∀ o ∈ [motCtrv 1, motCtra 2] ++ ((Manager.addTentativeTrack (motCtrv 3)
      (Manager.new 1 0 : Manager MotObj)).1).getAllTracks, SameTurns chol 1 2 60 o := by
  obtain ⟨chol, h⟩ := exists_llt
  refine ⟨chol, h, fun o ho => ?_⟩
  have e : ((Manager.addTentativeTrack (motCtrv 3) (Manager.new 1 0 : Manager MotObj)).1).getAllTracks =
      [motCtrv 3] := rfl
  rw [e] at ho
  simp only [List.cons_append, List.nil_append, List.mem_cons, List.not_mem_nil, or_false] at ho
  rcases ho with rfl | rfl | rfl
  · exact (sameTurns_sample h 1).1
  · exact (sameTurns_sample h 2).2
  · exact (sameTurns_sample h 3).1

end Mot.Props
