import Verif.Proofs.LinearPart
import Verif.Props.Ukf
/-!
# C84: what prediction does to speed, turn rate, acceleration and heading
-/

namespace Mot.Props

open Matrix Spec

theorem predict_ok {S : Type} {n : ℕ} [MotionModel S n] {chol : Chol} {α β κ time : ℝ}
    {o p : DynObj S (Matrix (Fin n) (Fin n) ℝ)}
    (h : predict o time (unscentedTransform chol α β κ) = .ok p) :
    ukfPredict chol o.state o.covariance (time - o.timestamp) α κ β = .ok (p.state, p.covariance) := by
  rw [(C37_swapped chol α β κ time o).1] at h
  unfold ukfVisitor at h
  split at h <;> cases h
  assumption

/-- C84 for CTRV objects: prediction by any duration leaves the speed, the turn rate, their
variances and their correlation as they are, whatever happens to the heading. -/
theorem C84_ctrv {chol : Chol} (hchol : IsLlt chol) {o p : DynObj CtrvState CtrvCov}
    (hP : o.covariance.PosDef) {α β κ time : ℝ}
    (h : predict o time (unscentedTransform chol α β κ) = .ok p) :
    p.state.v = o.state.v ∧ p.state.yawRate = o.state.yawRate ∧
    p.covariance 2 2 = o.covariance 2 2 ∧ p.covariance 2 4 = o.covariance 2 4 ∧
    p.covariance 4 2 = o.covariance 4 2 ∧ p.covariance 4 4 = o.covariance 4 4 := by
  have h' := predict_ok h
  have hN := (C42_defined_iff _ _ _ _ _ _ _).1 ⟨_, h'⟩
  obtain ⟨x, P', h1, h2, h3⟩ := ukfPredict_affine hchol o.state hP (β := κ)
    (dt := time - o.timestamp) hN (fun i => i = 2 ∨ i = 4) 1 0 (by
      intro q z hz _ i hi
      rw [one_mulVec, add_zero]
      rcases hi with rfl | rfl
      · rw [rotateYaw_of_ne (by decide)]; exact hz 2
      · rw [rotateYaw_of_ne (by decide)]; exact hz 4)
  rw [h1] at h'
  simp only [Outcome.ok.injEq, Prod.mk.injEq] at h'
  obtain ⟨hs, hC⟩ := h'
  simp only [one_mulVec, add_zero, one_mul, transpose_one, mul_one] at h2 h3
  rw [← hs, ← hC]
  exact ⟨h2 2 (.inl rfl), h2 4 (.inr rfl), h3 2 2 (.inl rfl) (.inl rfl),
    h3 2 4 (.inl rfl) (.inr rfl), h3 4 2 (.inr rfl) (.inl rfl), h3 4 4 (.inr rfl) (.inr rfl)⟩

/-- C84 for CTRA objects: speed and acceleration and their covariance change as under exact
constant acceleration, the turn rate not at all, whatever happens to the heading. -/
theorem C84_ctra {chol : Chol} (hchol : IsLlt chol) {o p : DynObj CtraState CtraCov}
    (hP : o.covariance.PosDef) {α β κ time : ℝ}
    (h : predict o time (unscentedTransform chol α β κ) = .ok p) :
    p.state.v = o.state.v + (time - o.timestamp) * o.state.a ∧
    p.state.yawRate = o.state.yawRate ∧ p.state.a = o.state.a ∧
    p.covariance 2 2 = o.covariance 2 2 + 2 * (time - o.timestamp) * o.covariance 2 5 +
      (time - o.timestamp) ^ 2 * o.covariance 5 5 ∧
    p.covariance 2 4 = o.covariance 2 4 + (time - o.timestamp) * o.covariance 4 5 ∧
    p.covariance 2 5 = o.covariance 2 5 + (time - o.timestamp) * o.covariance 5 5 ∧
    p.covariance 4 4 = o.covariance 4 4 ∧ p.covariance 4 5 = o.covariance 4 5 ∧
    p.covariance 5 5 = o.covariance 5 5 := by
  have h' := predict_ok h
  have hN := (C42_defined_iff _ _ _ _ _ _ _).1 ⟨_, h'⟩
  generalize time - o.timestamp = dt at h' ⊢
  obtain ⟨x, P', h1, h2, h3⟩ := ukfPredict_affine hchol o.state hP (β := κ)
    (dt := dt) hN (fun i => i = 2 ∨ i = 4 ∨ i = 5) (ctraStep dt) 0 (by
      intro q z hz _ i hi
      rw [ctraStep_mulVec, add_zero]
      rcases hi with rfl | rfl | rfl
      · rw [rotateYaw_of_ne (by decide)]
        have e2 : q.v = z 2 := hz 2
        have e5 : q.a = z 5 := hz 5
        show q.v + q.a * dt = z 2 + dt * z 5
        rw [e2, e5, mul_comm]
      · rw [rotateYaw_of_ne (by decide)]; exact hz 4
      · rw [rotateYaw_of_ne (by decide)]; exact hz 5)
  rw [h1] at h'
  simp only [Outcome.ok.injEq, Prod.mk.injEq] at h'
  obtain ⟨hs, hC⟩ := h'
  simp only [add_zero, sandwich_apply, ctraStep_mulVec] at h2 h3
  have sym : ∀ i j, o.covariance i j = o.covariance j i := fun i j => hP.1.apply j i
  rw [← hs, ← hC]
  refine ⟨h2 2 (.inl rfl), h2 4 (.inr (.inl rfl)), h2 5 (.inr (.inr rfl)),
    (h3 2 2 (.inl rfl) (.inl rfl)).trans ?_, (h3 2 4 (.inl rfl) (.inr (.inl rfl))).trans ?_,
    (h3 2 5 (.inl rfl) (.inr (.inr rfl))).trans ?_,
    h3 4 4 (.inr (.inl rfl)) (.inr (.inl rfl)), h3 4 5 (.inr (.inl rfl)) (.inr (.inr rfl)),
    h3 5 5 (.inr (.inr rfl)) (.inr (.inr rfl))⟩
  · show o.covariance 2 2 + dt * o.covariance 5 2 + dt * (o.covariance 2 5 + dt * o.covariance 5 5) = _
    rw [sym 5 2]; ring
  · show o.covariance 2 4 + dt * o.covariance 5 4 = _
    rw [sym 5 4]
  · rfl

/-- C84, heading of a CTRV object.  `c` is the heading expected from
`yaw + yaw rate · duration`, `r` the spread of the sigma points.  If no sigma point leaves
[0, 3.14159265359], the predicted heading is `c` and its covariances are those of the linear
motion. -/
theorem C84_heading_ctrv {chol : Chol} (hchol : IsLlt chol) {o : DynObj CtrvState CtrvCov}
    (hP : o.covariance.PosDef) {α β κ time dt c r : ℝ} (hdt : dt = time - o.timestamp)
    (hN : 0 < α ^ 2 * (5 + β))
    (hc : SameDir c (o.state.yaw.getAngle + dt * o.state.yawRate))
    (hr : r = √(α ^ 2 * (5 + β) *
      (o.covariance 3 3 + 2 * dt * o.covariance 3 4 + dt ^ 2 * o.covariance 4 4)))
    (h0 : r ≤ c) (h1 : c + r ≤ yawCut) :
    ∃ p, predict o time (unscentedTransform chol α β κ) = .ok p ∧
      p.state.yaw = Angle.ofRad c ∧
      p.covariance 3 3 = o.covariance 3 3 + 2 * dt * o.covariance 3 4 + dt ^ 2 * o.covariance 4 4 ∧
      p.covariance 3 4 = o.covariance 3 4 + dt * o.covariance 4 4 ∧
      p.covariance 2 3 = o.covariance 2 3 + dt * o.covariance 2 4 := by
  obtain ⟨s, P', h, hy, hC⟩ := ctrv_heading hchol hP (β := κ) hN hc hr (t := 0)
    fun v z hv hr' hz1 hz2 => by
      rw [add_zero]
      exact rotateYaw_three hv hr' ⟨by linarith, by linarith⟩
  subst hdt
  rw [add_zero] at hy
  exact ⟨_, (C37_swapped chol α β κ time o).2 _ _ h, hy, hC⟩

/-- C84, heading of a CTRV object, if all sigma points head between 3.14159265359 and 2π. -/
theorem C84_heading_high_ctrv {chol : Chol} (hchol : IsLlt chol) {o : DynObj CtrvState CtrvCov}
    (hP : o.covariance.PosDef) {α β κ time dt c r : ℝ} (hdt : dt = time - o.timestamp)
    (hN : 0 < α ^ 2 * (5 + β))
    (hc : SameDir c (o.state.yaw.getAngle + dt * o.state.yawRate))
    (hr : r = √(α ^ 2 * (5 + β) *
      (o.covariance 3 3 + 2 * dt * o.covariance 3 4 + dt ^ 2 * o.covariance 4 4)))
    (h0 : yawCut + r < c) (h1 : c + r < 2 * Real.pi) :
    ∃ p, predict o time (unscentedTransform chol α β κ) = .ok p ∧
      |p.state.yaw.getAngle - c| < 2 / 10 ^ 12 ∧
      p.covariance 3 3 = o.covariance 3 3 + 2 * dt * o.covariance 3 4 + dt ^ 2 * o.covariance 4 4 ∧
      p.covariance 3 4 = o.covariance 3 4 + dt * o.covariance 4 4 ∧
      p.covariance 2 3 = o.covariance 2 3 + dt * o.covariance 2 4 := by
  obtain ⟨s, P', h, hy, hC⟩ := ctrv_heading hchol hP (β := κ) hN hc hr (t := -(2 * yawCut))
    fun v z hv hr' hz1 hz2 => by
      rw [← sub_eq_add_neg]
      exact rotateYaw_three_high rfl hv hr' ⟨by linarith, by linarith⟩
  subst hdt
  refine ⟨_, (C37_swapped chol α β κ time o).2 _ _ h, ?_, hC⟩
  rw [hy]
  exact high_heading (r := r) (by rw [hr]; exact Real.sqrt_nonneg _) h0 h1

/-- C84, heading of a CTRA object.  `c` is the heading expected from
`yaw + yaw rate · duration`, `r` the spread of the sigma points.  If no sigma point leaves
[0, 3.14159265359], the predicted heading is `c` and its covariances are those of the linear
motion. -/
theorem C84_heading_ctra {chol : Chol} (hchol : IsLlt chol) {o : DynObj CtraState CtraCov}
    (hP : o.covariance.PosDef) {α β κ time dt c r : ℝ} (hdt : dt = time - o.timestamp)
    (hN : 0 < α ^ 2 * (6 + β))
    (hc : SameDir c (o.state.yaw.getAngle + dt * o.state.yawRate))
    (hr : r = √(α ^ 2 * (6 + β) *
      (o.covariance 3 3 + 2 * dt * o.covariance 3 4 + dt ^ 2 * o.covariance 4 4)))
    (h0 : r ≤ c) (h1 : c + r ≤ yawCut) :
    ∃ p, predict o time (unscentedTransform chol α β κ) = .ok p ∧
      p.state.yaw = Angle.ofRad c ∧
      p.covariance 3 3 = o.covariance 3 3 + 2 * dt * o.covariance 3 4 + dt ^ 2 * o.covariance 4 4 ∧
      p.covariance 3 4 = o.covariance 3 4 + dt * o.covariance 4 4 ∧
      p.covariance 2 3 = o.covariance 2 3 + dt * o.covariance 2 4 +
        dt * (o.covariance 3 5 + dt * o.covariance 4 5) ∧
      p.covariance 3 5 = o.covariance 3 5 + dt * o.covariance 4 5 := by
  obtain ⟨s, P', h, hy, hC⟩ := ctra_heading hchol hP (β := κ) hN hc hr (t := 0)
    fun v z hv hr' hz1 hz2 => by
      rw [add_zero]
      exact rotateYaw_three hv hr' ⟨by linarith, by linarith⟩
  subst hdt
  rw [add_zero] at hy
  exact ⟨_, (C37_swapped chol α β κ time o).2 _ _ h, hy, hC⟩

/-- C84, heading of a CTRA object, if all sigma points head between 3.14159265359 and 2π. -/
theorem C84_heading_high_ctra {chol : Chol} (hchol : IsLlt chol) {o : DynObj CtraState CtraCov}
    (hP : o.covariance.PosDef) {α β κ time dt c r : ℝ} (hdt : dt = time - o.timestamp)
    (hN : 0 < α ^ 2 * (6 + β))
    (hc : SameDir c (o.state.yaw.getAngle + dt * o.state.yawRate))
    (hr : r = √(α ^ 2 * (6 + β) *
      (o.covariance 3 3 + 2 * dt * o.covariance 3 4 + dt ^ 2 * o.covariance 4 4)))
    (h0 : yawCut + r < c) (h1 : c + r < 2 * Real.pi) :
    ∃ p, predict o time (unscentedTransform chol α β κ) = .ok p ∧
      |p.state.yaw.getAngle - c| < 2 / 10 ^ 12 ∧
      p.covariance 3 3 = o.covariance 3 3 + 2 * dt * o.covariance 3 4 + dt ^ 2 * o.covariance 4 4 ∧
      p.covariance 3 4 = o.covariance 3 4 + dt * o.covariance 4 4 ∧
      p.covariance 2 3 = o.covariance 2 3 + dt * o.covariance 2 4 +
        dt * (o.covariance 3 5 + dt * o.covariance 4 5) ∧
      p.covariance 3 5 = o.covariance 3 5 + dt * o.covariance 4 5 := by
  obtain ⟨s, P', h, hy, hC⟩ := ctra_heading hchol hP (β := κ) hN hc hr (t := -(2 * yawCut))
    fun v z hv hr' hz1 hz2 => by
      rw [← sub_eq_add_neg]
      exact rotateYaw_three_high rfl hv hr' ⟨by linarith, by linarith⟩
  subst hdt
  refine ⟨_, (C37_swapped chol α β κ time o).2 _ _ h, ?_, hC⟩
  rw [hy]
  exact high_heading (r := r) (by rw [hr]; exact Real.sqrt_nonneg _) h0 h1

/-- an object turning from 1.5 rad to 2 rad within a second, standard deviations 0.1: the
hypotheses of `C84_heading_ctrv` hold with `default_unscented_transform` -/
example {chol : Chol} (hchol : IsLlt chol) (o : DynObj CtrvState CtrvCov)
    (ho : o = ⟨10, ⟨0, 0, 5, Angle.ofRad (3 / 2), 1 / 2⟩, (1 / 100 : ℝ) • 1, ⟨[1]⟩, .pedestrian⟩) :
    ∃ p, predict o 11 (defaultUt chol) = .ok p ∧ p.state.v = 5 ∧ p.state.yaw = Angle.ofRad 2 ∧
      p.covariance 3 3 = 2 / 100 ∧ p.covariance 2 2 = 1 / 100 := by
  have hpi := Real.pi_gt_three
  have hP : ((1 / 100 : ℝ) • 1 : CtrvCov).PosDef := PosDef.one.smul (by norm_num)
  subst ho
  obtain ⟨p, h1, h2, h3, -, -⟩ := C84_heading_ctrv hchol
    (o := ⟨10, ⟨0, 0, 5, Angle.ofRad (3 / 2), 1 / 2⟩, (1 / 100 : ℝ) • 1, ⟨[1]⟩, .pedestrian⟩)
    hP (α := 1) (β := 2) (κ := 1) (time := 11) (dt := 1) (c := 2)
    (r := √(7 * (1 / 100 + 1 / 100))) (by norm_num) (by norm_num) (by
      rw [show (Angle.ofRad (3 / 2)).getAngle = 3 / 2 from
        Angle.getAngle_ofRad_of_range ⟨by norm_num, by linarith⟩]
      exact ⟨0, by norm_num⟩)
    (by congr 1; simp; norm_num)
    (by rw [Real.sqrt_le_left (by norm_num)]; norm_num)
    (by
      have : √(7 * (1 / 100 + 1 / 100) : ℝ) ≤ 1 := by rw [Real.sqrt_le_left (by norm_num)]; norm_num
      have := yawCut_bounds.1
      linarith)
  obtain ⟨e1, -, e2, -⟩ := C84_ctrv hchol hP h1
  refine ⟨p, h1, e1, h2, ?_, ?_⟩
  · rw [h3]; simp; norm_num
  · rw [e2]; simp

end Mot.Props
