import Verif.Props.CoversCtra
import Verif.Props.Gate
/-!
# C133: gates for the Mahalanobis score
-/

namespace Mot.Props

open Mot Matrix Spec Real

set_option exponentiation.threshold 2000

private theorem pose_covers₅ {P : CtrvCov} {e : Fin 5 → ℝ} {k : ℝ} (h : Covers P k .univ e) (w : Fin 3 → ℝ) :
    (w ⬝ᵥ ![e 0, e 1, e 3]) ^ 2 ≤ k ^ 2 * (w ⬝ᵥ (poseBlock (n := 1) P *ᵥ w)) := by
  have := h ![w 0, w 1, 0, w 2, 0] fun i hi => (hi trivial).elim
  simp only [dotProduct, mulVec, Fin.sum_univ_five, Fin.sum_univ_three, poseBlock, submatrix_apply, cons_val] at this ⊢
  linarith

private theorem pose_covers₆ {P : CtraCov} {e : Fin 6 → ℝ} {k : ℝ} (h : Covers P k .univ e) (w : Fin 3 → ℝ) :
    (w ⬝ᵥ ![e 0, e 1, e 3]) ^ 2 ≤ k ^ 2 * (w ⬝ᵥ (poseBlock (n := 2) P *ᵥ w)) := by
  have := h ![w 0, w 1, 0, w 2, 0, 0] fun i hi => (hi trivial).elim
  simp only [dotProduct, mulVec, Fin.sum_univ_six, Fin.sum_univ_three, poseBlock, submatrix_apply, cons_val] at this ⊢
  linarith

private theorem stat_le {C : Matrix (Fin 3) (Fin 3) ℝ} {δ : Fin 3 → ℝ} {d k : ℝ} (h : IsStatDistance C δ d) (hk : 0 ≤ k)
    (hw : ∀ w, (w ⬝ᵥ δ) ^ 2 ≤ k ^ 2 * (w ⬝ᵥ (C *ᵥ w))) : d ≤ k := h.2 ⟨hk, hw⟩

/-- C133, CTRV: the score of a track that is right to within `k` standard deviations and a detection of its object
that is within `j` standard deviations of the track's covariance is at most `k + j`, if the true heading does not
lie beyond 0 or a full turn from the estimated one. -/
theorem C133_kept_ctrv {s t q : CtrvState} {P : CtrvCov} (hP : P.PosDef) {e f : Fin 5 → ℝ} {k j : ℝ} (hk0 : 0 ≤ k)
    (hj0 : 0 ≤ j) (ht : SameUpToTurns t.toVec (s.toVec + e)) (hk : Covers P k .univ e)
    (h0 : 0 ≤ s.yaw.getAngle + e 3) (h1 : s.yaw.getAngle + e 3 < 2 * π)
    (hq : SameUpToTurns q.toVec (t.toVec + f)) (hj : Covers P j .univ f)
    (h2 : 0 ≤ t.yaw.getAngle + f 3) (h3 : t.yaw.getAngle + f 3 < 2 * π) :
    ∃ d, s.mahalanobis P q = some d ∧ d ≤ k + j := by
  have t0 : t.x = s.x + e 0 := ht 0
  have t1 : t.y = s.y + e 1 := ht 1
  have t3 : t.yaw.getAngle = s.yaw.getAngle + e 3 :=
    SameDir.eq_of_range (ht 3) (Angle.getAngle_range _) ⟨h0, h1⟩
  have q0 : q.x = t.x + f 0 := hq 0
  have q1 : q.y = t.y + f 1 := hq 1
  have q3 : q.yaw.getAngle = t.yaw.getAngle + f 3 :=
    SameDir.eq_of_range (hq 3) (Angle.getAngle_range _) ⟨h2, h3⟩
  obtain ⟨d₁, hd₁, hs₁⟩ := C57_ctrv_stat_distance s t P hP
  obtain ⟨d₂, hd₂, hs₂⟩ := C57_ctrv_stat_distance t q P hP
  obtain ⟨d, hd, hs⟩ := C57_ctrv_stat_distance s q P hP
  have l₁ : d₁ ≤ k := by
    refine stat_le hs₁ hk0 fun w => ?_
    have := pose_covers₅ hk w
    simp only [dotProduct, Fin.sum_univ_three, cons_val] at this ⊢
    rw [t0, t1, t3]
    refine le_trans (le_of_eq ?_) this
    ring
  have l₂ : d₂ ≤ j := by
    refine stat_le hs₂ hj0 fun w => ?_
    have := pose_covers₅ hj w
    simp only [dotProduct, Fin.sum_univ_three, cons_val] at this ⊢
    rw [q0, q1, q3]
    refine le_trans (le_of_eq ?_) this
    ring
  obtain ⟨a, b, c, ha, hb, hc, -, -, -, htri, -⟩ := poseMahalanobis_facts (poseBlock_posDef (n := 1) hP) s.pose t.pose q.pose
  have ea : s.mahalanobis P t = some a := by unfold CtrvState.mahalanobis; rw [ctrvPose_eq, ha]
  have eb : t.mahalanobis P q = some b := by unfold CtrvState.mahalanobis; rw [ctrvPose_eq, hb]
  have ec : s.mahalanobis P q = some c := by unfold CtrvState.mahalanobis; rw [ctrvPose_eq, hc]
  cases ea.symm.trans hd₁
  cases eb.symm.trans hd₂
  exact ⟨c, ec, htri.trans (add_le_add l₁ l₂)⟩

/-- C133, CTRA. -/
theorem C133_kept_ctra {s t q : CtraState} {P : CtraCov} (hP : P.PosDef) {e f : Fin 6 → ℝ} {k j : ℝ} (hk0 : 0 ≤ k)
    (hj0 : 0 ≤ j) (ht : SameUpToTurns t.toVec (s.toVec + e)) (hk : Covers P k .univ e)
    (h0 : 0 ≤ s.yaw.getAngle + e 3) (h1 : s.yaw.getAngle + e 3 < 2 * π)
    (hq : SameUpToTurns q.toVec (t.toVec + f)) (hj : Covers P j .univ f)
    (h2 : 0 ≤ t.yaw.getAngle + f 3) (h3 : t.yaw.getAngle + f 3 < 2 * π) :
    ∃ d, s.mahalanobis P q = some d ∧ d ≤ k + j := by
  have t0 : t.x = s.x + e 0 := ht 0
  have t1 : t.y = s.y + e 1 := ht 1
  have t3 : t.yaw.getAngle = s.yaw.getAngle + e 3 :=
    SameDir.eq_of_range (ht 3) (Angle.getAngle_range _) ⟨h0, h1⟩
  have q0 : q.x = t.x + f 0 := hq 0
  have q1 : q.y = t.y + f 1 := hq 1
  have q3 : q.yaw.getAngle = t.yaw.getAngle + f 3 :=
    SameDir.eq_of_range (hq 3) (Angle.getAngle_range _) ⟨h2, h3⟩
  obtain ⟨d₁, hd₁, hs₁⟩ := C57_ctra_stat_distance s t P hP
  obtain ⟨d₂, hd₂, hs₂⟩ := C57_ctra_stat_distance t q P hP
  have l₁ : d₁ ≤ k := by
    refine stat_le hs₁ hk0 fun w => ?_
    have := pose_covers₆ hk w
    simp only [dotProduct, Fin.sum_univ_three, cons_val] at this ⊢
    rw [t0, t1, t3]
    refine le_trans (le_of_eq ?_) this
    ring
  have l₂ : d₂ ≤ j := by
    refine stat_le hs₂ hj0 fun w => ?_
    have := pose_covers₆ hj w
    simp only [dotProduct, Fin.sum_univ_three, cons_val] at this ⊢
    rw [q0, q1, q3]
    refine le_trans (le_of_eq ?_) this
    ring
  obtain ⟨a, b, c, ha, hb, hc, -, -, -, htri, -⟩ := poseMahalanobis_facts (poseBlock_posDef (n := 2) hP) s.pose t.pose q.pose
  have ea : s.mahalanobis P t = some a := by unfold CtraState.mahalanobis; rw [ctraPose_eq, ha]
  have eb : t.mahalanobis P q = some b := by unfold CtraState.mahalanobis; rw [ctraPose_eq, hb]
  have ec : s.mahalanobis P q = some c := by unfold CtraState.mahalanobis; rw [ctraPose_eq, hc]
  cases ea.symm.trans hd₁
  cases eb.symm.trans hd₂
  exact ⟨c, ec, htri.trans (add_le_add l₁ l₂)⟩

/-- an example: both errors one standard deviation -/
example : ∃ d, (⟨0, 0, 5, Angle.ofRad (π / 2), 0⟩ : CtrvState).mahalanobis (diagonal fun _ => 4)
    ⟨2, 2, 5, Angle.ofRad (π / 2), 0⟩ = some d ∧ d ≤ 1 + 1 := by
  have hpi := Real.pi_gt_three
  have hhalf : (Angle.ofRad (π / 2)).getAngle = π / 2 :=
    Angle.getAngle_ofRad_of_range ⟨by linarith, by linarith⟩
  have h4 : √(4 : ℝ) = 2 := by rw [show (4 : ℝ) = 2 ^ 2 by norm_num]; exact Real.sqrt_sq (by norm_num)
  refine C133_kept_ctrv (t := ⟨2, 0, 5, Angle.ofRad (π / 2), 0⟩) (e := Pi.single 0 √4) (f := Pi.single 1 √4)
    (Matrix.PosDef.diagonal fun i => by norm_num) (by norm_num) (by norm_num) ?_
    (covers_diagonal (d := fun _ => 4) (fun i => by norm_num) 0) ?_ ?_ ?_
    (covers_diagonal (d := fun _ => 4) (fun i => by norm_num) 1) ?_ ?_
  · intro i
    fin_cases i <;> simp [CtrvState.toVec, h4]
    exact SameDir.refl _
  · simp [hhalf]; linarith
  · simp [hhalf]; linarith
  · intro i
    fin_cases i <;> simp [CtrvState.toVec, h4]
    exact SameDir.refl _
  · simp [hhalf]; linarith
  · simp [hhalf]; linarith

/-- C133: the condition on the heading is needed.  However small `k > 0` and however large `g`, there are a track
and an object `k` standard deviations away from it (in heading alone, across 0) whose score is above `g`. -/
theorem C133_across_zero {k : ℝ} (hk : 0 < k) (g : ℝ) :
    ∃ (s t : CtrvState) (d e : Fin 5 → ℝ), (∀ i, 0 < d i) ∧ SameUpToTurns t.toVec (s.toVec + e) ∧
      Covers (diagonal d) k .univ e ∧ ∃ x, s.mahalanobis (diagonal d) t = some x ∧ g < x := by
  have hpi := Real.pi_gt_three
  set σ : ℝ := 1 / (1 + k + |g|) with hσ
  have hg0 := abs_nonneg g
  have hσ0 : 0 < σ := by positivity
  have hkσ : k * σ ≤ 1 := by rw [hσ, mul_one_div, div_le_one (by positivity)]; linarith
  have hgσ : |g| * σ ≤ 1 := by rw [hσ, mul_one_div, div_le_one (by positivity)]; linarith
  have hkσ0 : 0 < k * σ := by positivity
  have hP : (diagonal fun _ : Fin 5 => σ ^ 2 : CtrvCov).PosDef := Matrix.PosDef.diagonal fun i => by positivity
  have ha0 : (Angle.ofRad 0).getAngle = 0 := Angle.getAngle_ofRad_of_range ⟨le_refl _, by linarith⟩
  have ha1 : (Angle.ofRad (2 * π - k * σ)).getAngle = 2 * π - k * σ :=
    Angle.getAngle_ofRad_of_range ⟨by linarith, by linarith⟩
  obtain ⟨x, hx, hst⟩ := C57_ctrv_stat_distance ⟨0, 0, 0, Angle.ofRad 0, 0⟩
    ⟨0, 0, 0, Angle.ofRad (2 * π - k * σ), 0⟩ _ hP
  refine ⟨_, _, fun _ => σ ^ 2, Pi.single 3 (-(k * σ)), fun _ => by positivity, ?_, ?_, x, hx, ?_⟩
  · intro i
    fin_cases i <;> simp [CtrvState.toVec, ha0, ha1]
    exact ⟨1, by push_cast; ring⟩
  · intro u _
    rw [dotProduct_single, mul_pow, neg_sq]
    simp only [dotProduct, mulVec_diagonal, Fin.sum_univ_five]
    have : 0 < k ^ 2 * σ ^ 2 := by positivity
    nlinarith [mul_nonneg this.le (sq_nonneg (u 0)), mul_nonneg this.le (sq_nonneg (u 1)),
      mul_nonneg this.le (sq_nonneg (u 2)), mul_nonneg this.le (sq_nonneg (u 4))]
  · have h := hst.1.2 ![0, 0, 1]
    have h0 : 0 ≤ x := hst.1.1
    simp only [dotProduct, mulVec, Fin.sum_univ_three, poseBlock, submatrix_apply, cons_val, zero_mul, zero_add,
      one_mul, mul_one, mul_zero, diagonal_apply_eq, ha0, ha1] at h
    by_contra hc
    rw [not_lt] at hc
    have h1 : x * σ ≤ 1 := (mul_le_mul_of_nonneg_right (hc.trans (le_abs_self g)) hσ0.le).trans hgσ
    have h2 : 0 ≤ x * σ := by positivity
    nlinarith

/-- an example for CTRA: one standard deviation each in x and heading -/
example : ∃ d, (⟨0, 0, 5, Angle.ofRad (π / 2), 0, 1⟩ : CtraState).mahalanobis (diagonal fun _ => 1)
    ⟨1, 0, 5, Angle.ofRad (π / 2 + 1), 0, 1⟩ = some d ∧ d ≤ 1 + 1 := by
  have hpi := Real.pi_gt_three
  have hhalf : (Angle.ofRad (π / 2)).getAngle = π / 2 :=
    Angle.getAngle_ofRad_of_range ⟨by linarith, by linarith⟩
  have hone : (Angle.ofRad (π / 2 + 1)).getAngle = π / 2 + 1 :=
    Angle.getAngle_ofRad_of_range ⟨by linarith, by linarith⟩
  refine C133_kept_ctra (t := ⟨1, 0, 5, Angle.ofRad (π / 2), 0, 1⟩) (e := Pi.single 0 √1) (f := Pi.single 3 √1)
    (Matrix.PosDef.diagonal fun i => by norm_num) (by norm_num) (by norm_num) ?_
    (covers_diagonal (d := fun _ => 1) (fun i => by norm_num) 0) ?_ ?_ ?_
    (covers_diagonal (d := fun _ => 1) (fun i => by norm_num) 3) ?_ ?_
  · intro i
    fin_cases i <;> simp [CtraState.toVec]
    exact SameDir.refl _
  · simp [hhalf]; linarith
  · simp [hhalf]; linarith
  · intro i
    fin_cases i <;> simp [CtraState.toVec, hhalf, hone]
    exact SameDir.refl _
  · simp [hhalf]; linarith
  · simp [hhalf]; linarith

open Classical in
/-- C133: which pairs a gate at `g` leaves.  A CTRV track and a CTRV detection with the score `x` stay in the
map of scores exactly if `x` is not above `g`. -/
theorem C133_gate {p q : DynObj CtrvState CtrvCov} {g x : ℝ} (hx : p.state.mahalanobis p.covariance q.state = some x) :
    (pruneScoresIf (scoreTracksAndDetections [(.inl p : MotObj)] [(.inl q : MotObj)]
      (mahalanobisScore CtrvState.mahalanobis CtraState.mahalanobis))
      fun s => decide (∃ x, s = some x ∧ g < x)).find? (mkPair p.uuid q.uuid) = if g < x then none else some (some x) := by
  have h : (scoreTracksAndDetections [(.inl p : MotObj)] [(.inl q : MotObj)]
      (mahalanobisScore CtrvState.mahalanobis CtraState.mahalanobis)).find? (mkPair p.uuid q.uuid) = some (some x) := by
    rw [← hx]
    simp only [scoreTracksAndDetections, List.foldl_cons, List.foldl_nil, scoreRow, mahalanobisScore, scoreVariant]
    rw [SMap.find?_set]
    exact if_pos rfl
  split
  · rename_i hg
    by_contra hne
    obtain ⟨z, hz⟩ := Option.ne_none_iff_exists'.1 hne
    rw [C18_prune_iff] at hz
    obtain ⟨hz1, hz2⟩ := hz
    rw [h] at hz1
    cases hz1
    rw [decide_eq_false_iff_not] at hz2
    exact hz2 ⟨x, rfl, hg⟩
  · rename_i hg
    rw [C18_prune_iff]
    refine ⟨h, ?_⟩
    rw [decide_eq_false_iff_not]
    rintro ⟨y, hy, hgy⟩
    cases hy
    exact hg hgy

/-- a deviation in x alone already gives a lower bound of the score -/
private theorem lt_stat {P : CtrvCov} {δ : Fin 3 → ℝ} {d g : ℝ} (h : IsStatDistance (poseBlock (n := 1) P) δ d)
    (hP : 0 < P 0 0) (hg : g ^ 2 * P 0 0 < δ 0 ^ 2) : g < d := by
  have := h.1.2 ![1, 0, 0]
  have h0 : 0 ≤ d := h.1.1
  simp only [dotProduct, mulVec, Fin.sum_univ_three, poseBlock, submatrix_apply, cons_val, one_mul, zero_mul, add_zero,
    mul_one, mul_zero] at this
  by_contra hc
  rw [not_lt] at hc
  have h2 : d ^ 2 ≤ g ^ 2 := pow_le_pow_left₀ h0 hc 2
  have := mul_le_mul_of_nonneg_right h2 hP.le
  linarith

open Classical in
/-- C133: after a prediction no gate is safe.  For every threshold `g`, speed and duration up to a million seconds
there is a track with uncorrelated uncertainties, an object one standard deviation away (in turn rate alone), and a
perfect detection of the object at the new time, such that the predicted covariance is positive definite, the score
is above `g`, and the pair is gated out. -/
theorem C133_unsafe {chol : Chol} (hchol : IsLlt chol) {V T : ℝ} (hV : 0 < V) (hT : 0 < T) (hT' : T ≤ 10 ^ 6) (g : ℝ) :
    ∃ (d : Fin 5 → ℝ) (t : CtrvState) (e : Fin 5 → ℝ) (p : DynObj CtrvState CtrvCov), (∀ i, 0 < d i) ∧
      t.toVec = (northbound V d).state.toVec + e ∧ Covers (diagonal d) 1 .univ e ∧
      predict (northbound V d) (10 + T) (defaultUt chol) = .ok p ∧ p.covariance.PosDef ∧
      (∃ s, p.state.mahalanobis p.covariance (t.next T) = some s ∧ g < s) ∧
      ∀ (C : CtrvCov) (u : Uuid) (c : SemanticClass),
        (pruneScoresIf (scoreTracksAndDetections [(.inl p : MotObj)] [(.inl ⟨10 + T, t.next T, C, u, c⟩ : MotObj)]
          (mahalanobisScore CtrvState.mahalanobis CtraState.mahalanobis))
          fun s => decide (∃ x, s = some x ∧ g < x)).find? (mkPair p.uuid u) = none := by
  obtain ⟨d, t, e, p, h1, h2, h3, h4, h5, h6⟩ := C130_lost hchol hV hT hT' g
  obtain ⟨s, hs, hst⟩ := C57_ctrv_stat_distance p.state (t.next T) p.covariance h5
  have hgs : g < s := by
    refine lt_stat hst (h5.diag_pos (i := 0)) (lt_of_lt_of_le h6 (le_of_eq ?_))
    simp only [cons_val]
    ring
  refine ⟨d, t, e, p, h1, h2, h3, h4, h5, ⟨s, hs, hgs⟩, fun C u c => ?_⟩
  exact (C133_gate (q := ⟨10 + T, t.next T, C, u, c⟩) hs).trans (if_pos hgs)

/-- C133: likewise for CTRA. -/
theorem C133_across_zero_ctra {k : ℝ} (hk : 0 < k) (g : ℝ) :
    ∃ (s t : CtraState) (d e : Fin 6 → ℝ), (∀ i, 0 < d i) ∧ SameUpToTurns t.toVec (s.toVec + e) ∧
      Covers (diagonal d) k .univ e ∧ ∃ x, s.mahalanobis (diagonal d) t = some x ∧ g < x := by
  have hpi := Real.pi_gt_three
  set σ : ℝ := 1 / (1 + k + |g|) with hσ
  have hg0 := abs_nonneg g
  have hσ0 : 0 < σ := by positivity
  have hkσ : k * σ ≤ 1 := by rw [hσ, mul_one_div, div_le_one (by positivity)]; linarith
  have hgσ : |g| * σ ≤ 1 := by rw [hσ, mul_one_div, div_le_one (by positivity)]; linarith
  have hkσ0 : 0 < k * σ := by positivity
  have hP : (diagonal fun _ : Fin 6 => σ ^ 2 : CtraCov).PosDef := Matrix.PosDef.diagonal fun i => by positivity
  have ha0 : (Angle.ofRad 0).getAngle = 0 := Angle.getAngle_ofRad_of_range ⟨le_refl _, by linarith⟩
  have ha1 : (Angle.ofRad (2 * π - k * σ)).getAngle = 2 * π - k * σ :=
    Angle.getAngle_ofRad_of_range ⟨by linarith, by linarith⟩
  obtain ⟨x, hx, hst⟩ := C57_ctra_stat_distance ⟨0, 0, 0, Angle.ofRad 0, 0, 0⟩
    ⟨0, 0, 0, Angle.ofRad (2 * π - k * σ), 0, 0⟩ _ hP
  refine ⟨_, _, fun _ => σ ^ 2, Pi.single 3 (-(k * σ)), fun _ => by positivity, ?_, ?_, x, hx, ?_⟩
  · intro i
    fin_cases i <;> simp [CtraState.toVec, ha0, ha1]
    exact ⟨1, by push_cast; ring⟩
  · intro u _
    rw [dotProduct_single, mul_pow, neg_sq]
    simp only [dotProduct, mulVec_diagonal, Fin.sum_univ_six]
    have : 0 < k ^ 2 * σ ^ 2 := by positivity
    nlinarith [mul_nonneg this.le (sq_nonneg (u 0)), mul_nonneg this.le (sq_nonneg (u 1)),
      mul_nonneg this.le (sq_nonneg (u 2)), mul_nonneg this.le (sq_nonneg (u 4)),
      mul_nonneg this.le (sq_nonneg (u 5))]
  · have h := hst.1.2 ![0, 0, 1]
    have h0 : 0 ≤ x := hst.1.1
    simp only [dotProduct, mulVec, Fin.sum_univ_three, poseBlock, submatrix_apply, cons_val, zero_mul, zero_add,
      one_mul, mul_one, mul_zero, diagonal_apply_eq, ha0, ha1] at h
    by_contra hc
    rw [not_lt] at hc
    have h1 : x * σ ≤ 1 := (mul_le_mul_of_nonneg_right (hc.trans (le_abs_self g)) hσ0.le).trans hgσ
    have h2 : 0 ≤ x * σ := by positivity
    nlinarith

open Classical in
/-- C133: likewise for CTRA. -/
theorem C133_gate_ctra {p q : DynObj CtraState CtraCov} {g x : ℝ} (hx : p.state.mahalanobis p.covariance q.state = some x) :
    (pruneScoresIf (scoreTracksAndDetections [(.inr p : MotObj)] [(.inr q : MotObj)]
      (mahalanobisScore CtrvState.mahalanobis CtraState.mahalanobis))
      fun s => decide (∃ x, s = some x ∧ g < x)).find? (mkPair p.uuid q.uuid) = if g < x then none else some (some x) := by
  have h : (scoreTracksAndDetections [(.inr p : MotObj)] [(.inr q : MotObj)]
      (mahalanobisScore CtrvState.mahalanobis CtraState.mahalanobis)).find? (mkPair p.uuid q.uuid) = some (some x) := by
    rw [← hx]
    simp only [scoreTracksAndDetections, List.foldl_cons, List.foldl_nil, scoreRow, mahalanobisScore, scoreVariant]
    rw [SMap.find?_set]
    exact if_pos rfl
  split
  · rename_i hg
    by_contra hne
    obtain ⟨z, hz⟩ := Option.ne_none_iff_exists'.1 hne
    rw [C18_prune_iff] at hz
    obtain ⟨hz1, hz2⟩ := hz
    rw [h] at hz1
    cases hz1
    rw [decide_eq_false_iff_not] at hz2
    exact hz2 ⟨x, rfl, hg⟩
  · rename_i hg
    rw [C18_prune_iff]
    refine ⟨h, ?_⟩
    rw [decide_eq_false_iff_not]
    rintro ⟨y, hy, hgy⟩
    cases hy
    exact hg hgy

/-- a deviation in x alone of CTRA states -/
private theorem lt_stat_ctra {P : CtraCov} {δ : Fin 3 → ℝ} {d g : ℝ} (h : IsStatDistance (poseBlock (n := 2) P) δ d)
    (hP : 0 < P 0 0) (hg : g ^ 2 * P 0 0 < δ 0 ^ 2) : g < d := by
  have := h.1.2 ![1, 0, 0]
  have h0 : 0 ≤ d := h.1.1
  simp only [dotProduct, mulVec, Fin.sum_univ_three, poseBlock, submatrix_apply, cons_val, one_mul, zero_mul, add_zero,
    mul_one, mul_zero] at this
  by_contra hc
  rw [not_lt] at hc
  have h2 : d ^ 2 ≤ g ^ 2 := pow_le_pow_left₀ h0 hc 2
  have := mul_le_mul_of_nonneg_right h2 hP.le
  linarith

open Classical in
/-- C133: after a prediction no gate is safe for CTRA tracks either. -/
theorem C133_unsafe_ctra {chol : Chol} (hchol : IsLlt chol) {V T : ℝ} (hV : 0 < V) (hT : 0 < T) (hT' : T ≤ 10 ^ 6) (g : ℝ) :
    ∃ (d : Fin 6 → ℝ) (t : CtraState) (e : Fin 6 → ℝ) (p : DynObj CtraState CtraCov), (∀ i, 0 < d i) ∧
      t.toVec = (northboundCtra V d).state.toVec + e ∧ Covers (diagonal d) 1 .univ e ∧
      predict (northboundCtra V d) (10 + T) (defaultUt chol) = .ok p ∧ p.covariance.PosDef ∧
      (∃ s, p.state.mahalanobis p.covariance (t.next T) = some s ∧ g < s) ∧
      ∀ (C : CtraCov) (u : Uuid) (c : SemanticClass),
        (pruneScoresIf (scoreTracksAndDetections [(.inr p : MotObj)] [(.inr ⟨10 + T, t.next T, C, u, c⟩ : MotObj)]
          (mahalanobisScore CtrvState.mahalanobis CtraState.mahalanobis))
          fun s => decide (∃ x, s = some x ∧ g < x)).find? (mkPair p.uuid u) = none := by
  obtain ⟨d, t, e, p, h1, h2, h3, h4, h5, h6⟩ := C130_lost_ctra hchol hV hT hT' g
  obtain ⟨s, hs, hst⟩ := C57_ctra_stat_distance p.state (t.next T) p.covariance h5
  have hgs : g < s := by
    refine lt_stat_ctra hst (h5.diag_pos (i := 0)) (lt_of_lt_of_le h6 (le_of_eq ?_))
    simp only [cons_val]
    ring
  refine ⟨d, t, e, p, h1, h2, h3, h4, h5, ⟨s, hs, hgs⟩, fun C u c => ?_⟩
  exact (C133_gate_ctra (q := ⟨10 + T, t.next T, C, u, c⟩) hs).trans (if_pos hgs)

private theorem stat_le_of_floor {C : Matrix (Fin 3) (Fin 3) ℝ} {δ : Fin 3 → ℝ} {d l : ℝ} (h : IsStatDistance C δ d)
    (hl : 0 < l) (hC : ∀ w, l * (w ⬝ᵥ w) ≤ w ⬝ᵥ (C *ᵥ w)) : d ≤ √(δ ⬝ᵥ δ) / √l := by
  have hδ : 0 ≤ δ ⬝ᵥ δ := by
    simp only [dotProduct, Fin.sum_univ_three]
    nlinarith [sq_nonneg (δ 0), sq_nonneg (δ 1), sq_nonneg (δ 2)]
  refine stat_le h (by positivity) fun w => ?_
  rw [div_pow, Real.sq_sqrt hδ, Real.sq_sqrt hl.le, div_mul_eq_mul_div, le_div_iff₀ hl]
  have h1 : (w ⬝ᵥ δ) ^ 2 ≤ (w ⬝ᵥ w) * (δ ⬝ᵥ δ) := by
    simp only [dotProduct, Fin.sum_univ_three]
    nlinarith [sq_nonneg (w 0 * δ 1 - w 1 * δ 0), sq_nonneg (w 0 * δ 2 - w 2 * δ 0), sq_nonneg (w 1 * δ 2 - w 2 * δ 1)]
  have h2 := mul_le_mul_of_nonneg_left (hC w) hδ
  nlinarith

/-- C133: what is safe.  If the predicted variances in position and heading are at least `l` in every direction, the
score of the moved object is at most the bound of C131 for its distance, divided by `√l`. -/
theorem C133_safe_ctrv {chol : Chol} (hchol : IsLlt chol) {o p : DynObj CtrvState CtrvCov} (hP : o.covariance.PosDef)
    {α β κ time T c r k ρ W l : ℝ} (hk0 : 0 ≤ k) (hT : T = time - o.timestamp)
    (hρ : ρ = √(5 / (α ^ 2 * (5 + β)))) (hkN : k ^ 2 ≤ α ^ 2 * (5 + β))
    (hc : SameDir c (o.state.yaw.getAngle + T * o.state.yawRate))
    (hW : W = headingVariance T (o.covariance 3 3) (o.covariance 3 4) (o.covariance 4 4))
    (hr : r = √(α ^ 2 * (5 + β) * W)) (h0 : r ≤ c) (h1 : c + r ≤ yawCut)
    (h : predict o time (unscentedTransform chol α β κ) = .ok p) {t : CtrvState} {e : Fin 5 → ℝ}
    (ht : SameUpToTurns t.toVec (o.state.toVec + e)) (hk : Covers o.covariance k .univ e)
    (hp : p.covariance.PosDef) (hl : 0 < l)
    (hfloor : ∀ w, l * (w ⬝ᵥ w) ≤ w ⬝ᵥ (poseBlock (n := 1) p.covariance *ᵥ w)) :
    ∃ s, p.state.mahalanobis p.covariance (t.next T) = some s ∧
      s ≤ poseReach k (ctrvPositionReach k ρ T o.state.v o.covariance) W / √l := by
  have hE := C131_ctrv hchol hP hk0 hT hρ hkN hc hW hr h0 h1 h ht hk
  obtain ⟨s, hs, hst⟩ := C57_ctrv_stat_distance p.state (t.next T) p.covariance hp
  refine ⟨s, hs, (stat_le_of_floor hst hl hfloor).trans (div_le_div_of_nonneg_right (le_trans (le_of_eq ?_) hE)
    (Real.sqrt_nonneg _))⟩
  rw [(C55_ctrv_metric _ _ p.state).2.2.2]
  simp only [dotProduct, Fin.sum_univ_three, cons_val, ← sq]

/-- an example: a track whose object turns by one standard deviation more, seen at once -/
example {chol : Chol} (hchol : IsLlt chol) (x : ℝ) (u : Uuid) :
    ∃ s, (gateTrack x u).state.mahalanobis (gateTrack x u).covariance ((gateTruth x).next 0) = some s ∧ s ≤ 30 := by
  have hpi := Real.pi_gt_three
  have hpi' := Real.pi_lt_d2
  have hcut := yawCut_bounds
  have hhalf : (Angle.ofRad (π / 2)).getAngle = π / 2 :=
    Angle.getAngle_ofRad_of_range ⟨by linarith, by linarith⟩
  have h7 : √((1 : ℝ) ^ 2 * (5 + 2) * (1 / 100)) ≤ 1 / 2 := by
    rw [Real.sqrt_le_left (by norm_num)]; norm_num
  have h7' : √(7 * ((1 : ℝ) / 10) ^ 2) ≤ 1 / 2 := by
    rw [Real.sqrt_le_left (by norm_num)]; norm_num
  have hP : (gateTrack x u).covariance.PosDef := Matrix.PosDef.diagonal fun i => by norm_num
  have h : predict (gateTrack x u) 10 (unscentedTransform chol 1 2 1) = .ok (gateTrack x u) :=
    C41_ctrv_partial hchol (gateTrack x u) (Angle.valid_ofRad _) hP
      (by simp only [gateTrack, hhalf, diagonal_apply_eq]; linarith)
      (by simp only [gateTrack, hhalf, diagonal_apply_eq]; linarith)
  obtain ⟨s, hs, hle⟩ := C133_safe_ctrv hchol hP (T := 0) (c := π / 2) (k := 1) (W := 1 / 100) (l := (1 / 10) ^ 2)
    (by norm_num) (by norm_num [gateTrack]) rfl (by norm_num)
    (by simp only [gateTrack, hhalf, mul_zero, add_zero]; exact SameDir.refl _)
    (by simp [gateTrack, headingVariance]; norm_num) rfl (by linarith) (by linarith) h
    (t := gateTruth x) (e := Pi.single 4 √((fun _ : Fin 5 => ((1 : ℝ) / 10) ^ 2) 4))
    (by
      intro i
      fin_cases i <;> simp [gateTrack, gateTruth, CtrvState.toVec]
      exact SameDir.refl _)
    (covers_diagonal (fun i => by norm_num) 4) hP (by norm_num)
    (by
      intro w
      simp [gateTrack, poseBlock, dotProduct, mulVec, Fin.sum_univ_three, diagonal_apply]
      apply le_of_eq
      ring)
  refine ⟨s, hs, hle.trans ?_⟩
  rw [Real.sqrt_sq (by norm_num), div_le_iff₀ (by norm_num)]
  have h2 : √(((1 : ℝ) / 10) ^ 2 + (1 / 10) ^ 2) ≤ 2 / 10 := by
    rw [Real.sqrt_le_left (by norm_num)]; norm_num
  have h20 := Real.sqrt_nonneg (((1 : ℝ) / 10) ^ 2 + (1 / 10) ^ 2)
  simp only [poseReach, ctrvPositionReach, gateTrack, diagonal_apply_eq]
  generalize √(((1 : ℝ) / 10) ^ 2 + (1 / 10) ^ 2) = z at *
  rw [Real.sqrt_le_left (by norm_num)]
  simp only [abs_zero]
  ring_nf
  nlinarith

/-- C133: likewise for CTRA tracks. -/
theorem C133_safe_ctra {chol : Chol} (hchol : IsLlt chol) {o p : DynObj CtraState CtraCov} (hP : o.covariance.PosDef)
    {α β κ time T c r k ρ W l : ℝ} (hk0 : 0 ≤ k) (hT : T = time - o.timestamp)
    (hρ : ρ = √(6 / (α ^ 2 * (6 + β)))) (hkN : k ^ 2 ≤ α ^ 2 * (6 + β))
    (hc : SameDir c (o.state.yaw.getAngle + T * o.state.yawRate))
    (hW : W = headingVariance T (o.covariance 3 3) (o.covariance 3 4) (o.covariance 4 4))
    (hr : r = √(α ^ 2 * (6 + β) * W)) (h0 : r ≤ c) (h1 : c + r ≤ yawCut)
    (h : predict o time (unscentedTransform chol α β κ) = .ok p) {t : CtraState} {e : Fin 6 → ℝ}
    (ht : SameUpToTurns t.toVec (o.state.toVec + e)) (hk : Covers o.covariance k .univ e)
    (hp : p.covariance.PosDef) (hl : 0 < l)
    (hfloor : ∀ w, l * (w ⬝ᵥ w) ≤ w ⬝ᵥ (poseBlock (n := 2) p.covariance *ᵥ w)) :
    ∃ s, p.state.mahalanobis p.covariance (t.next T) = some s ∧
      s ≤ poseReach k (ctraPositionReach k ρ T o.state.v o.state.a o.covariance) W / √l := by
  have hE := C131_ctra hchol hP hk0 hT hρ hkN hc hW hr h0 h1 h ht hk
  obtain ⟨s, hs, hst⟩ := C57_ctra_stat_distance p.state (t.next T) p.covariance hp
  refine ⟨s, hs, (stat_le_of_floor hst hl hfloor).trans (div_le_div_of_nonneg_right (le_trans (le_of_eq ?_) hE)
    (Real.sqrt_nonneg _))⟩
  rw [(C55_ctra_metric _ _ p.state).2.2.2]
  simp only [dotProduct, Fin.sum_univ_three, cons_val, ← sq]

end Mot.Props
