import Verif.Proofs.Sensitivity
import Verif.Props.LinearPart
import Verif.Props.Singular
/-!
# C126: small errors of a state make small errors of its prediction
-/

namespace Mot.Props

open Mot Matrix Spec Real

private theorem sqrt_add_le (a b c d : ℝ) :
    √((a + c) ^ 2 + (b + d) ^ 2) ≤ √(a ^ 2 + b ^ 2) + √(c ^ 2 + d ^ 2) := by
  rw [← Complex.norm_add_mul_I, ← Complex.norm_add_mul_I a, ← Complex.norm_add_mul_I c]
  refine le_trans (le_of_eq ?_) (norm_add_le _ _)
  congr 1
  push_cast
  ring

/-! ## `get_next_state` -/

set_option exponentiation.threshold 2000

/-- C126: predictions of two CTRV states whose headings differ by `δ` (in either direction, up to
full turns). -/
theorem C126_ctrv (s r : CtrvState) (t : ℝ) {δ : ℝ}
    (hδ : SameDir (r.yaw.getAngle - s.yaw.getAngle) δ) :
    √(((r.next t).x - (s.next t).x) ^ 2 + ((r.next t).y - (s.next t).y) ^ 2) ≤
      √((r.x - s.x) ^ 2 + (r.y - s.y) ^ 2) + |t| * |r.v - s.v| + |s.v| * |t| * |δ| +
        |s.v| * t ^ 2 / 2 * (|r.yawRate - s.yawRate| + 1 / 2 ^ 1021) ∧
    SameDir ((r.next t).yaw.getAngle - (s.next t).yaw.getAngle) (δ + (r.yawRate - s.yawRate) * t) := by
  constructor
  · have h1 := near_ctrv s r t hδ
    have h2 := sqrt_add_le (r.x - s.x) (r.y - s.y) ((r.next t).x - (s.next t).x - (r.x - s.x))
      ((r.next t).y - (s.next t).y - (r.y - s.y))
    rw [add_sub_cancel, add_sub_cancel] at h2
    rw [zero_mul, add_zero] at h1
    linarith
  · refine ((r.next_sameDir t).sub (s.next_sameDir t)).trans ?_
    rw [show r.yaw.getAngle + r.yawRate * t - (s.yaw.getAngle + s.yawRate * t) =
      r.yaw.getAngle - s.yaw.getAngle + (r.yawRate - s.yawRate) * t by ring]
    exact hδ.add (SameDir.refl _)

/-- C126 without the correction for yaw rates below the smallest normal double. -/
theorem C126_ctrv_admissible (s r : CtrvState) (hs : Admissible s.yawRate) (hr : Admissible r.yawRate)
    (t : ℝ) {δ : ℝ} (hδ : SameDir (r.yaw.getAngle - s.yaw.getAngle) δ) :
    √(((r.next t).x - (s.next t).x) ^ 2 + ((r.next t).y - (s.next t).y) ^ 2) ≤
      √((r.x - s.x) ^ 2 + (r.y - s.y) ^ 2) + |t| * |r.v - s.v| + |s.v| * |t| * |δ| +
        |s.v| * t ^ 2 / 2 * |r.yawRate - s.yawRate| := by
  have h1 := (C45_ctrv_ode s hs).1.near (C45_ctrv_ode r hr).1 hδ t
  have h2 := sqrt_add_le (r.x - s.x) (r.y - s.y) ((r.next t).x - (s.next t).x - (r.x - s.x))
    ((r.next t).y - (s.next t).y - (r.y - s.y))
  rw [add_sub_cancel, add_sub_cancel] at h2
  rw [sub_zero, abs_zero] at h1
  linarith

/-- C126 for CTRA states. -/
theorem C126_ctra (s r : CtraState) (t : ℝ) {δ : ℝ}
    (hδ : SameDir (r.yaw.getAngle - s.yaw.getAngle) δ) :
    √(((r.next t).x - (s.next t).x) ^ 2 + ((r.next t).y - (s.next t).y) ^ 2) ≤
      √((r.x - s.x) ^ 2 + (r.y - s.y) ^ 2) + |t| * |r.v - s.v| + t ^ 2 / 2 * |r.a - s.a| +
        (|s.v| * |t| + |s.a| * t ^ 2 / 2) * |δ| +
        (|s.v| * t ^ 2 / 2 + |s.a| * |t| ^ 3 / 3) * (|r.yawRate - s.yawRate| + 1 / 2 ^ 1021) ∧
    |(r.next t).v - (s.next t).v| ≤ |r.v - s.v| + |t| * |r.a - s.a| ∧
    SameDir ((r.next t).yaw.getAngle - (s.next t).yaw.getAngle) (δ + (r.yawRate - s.yawRate) * t) := by
  refine ⟨?_, ?_, ?_⟩
  · have h1 := near_ctra s r t hδ
    have h2 := sqrt_add_le (r.x - s.x) (r.y - s.y) ((r.next t).x - (s.next t).x - (r.x - s.x))
      ((r.next t).y - (s.next t).y - (r.y - s.y))
    rw [add_sub_cancel, add_sub_cancel] at h2
    linarith
  · rw [CtraState.next_v, CtraState.next_v,
      show r.v + r.a * t - (s.v + s.a * t) = r.v - s.v + t * (r.a - s.a) by ring, ← abs_mul]
    exact abs_add_le _ _
  · refine ((r.next_sameDir t).sub (s.next_sameDir t)).trans ?_
    rw [show r.yaw.getAngle + r.yawRate * t - (s.yaw.getAngle + s.yawRate * t) =
      r.yaw.getAngle - s.yaw.getAngle + (r.yawRate - s.yawRate) * t by ring]
    exact hδ.add (SameDir.refl _)

/-- C126 for CTRA states without the correction. -/
theorem C126_ctra_admissible (s r : CtraState) (hs : Admissible s.yawRate) (hr : Admissible r.yawRate)
    (t : ℝ) {δ : ℝ} (hδ : SameDir (r.yaw.getAngle - s.yaw.getAngle) δ) :
    √(((r.next t).x - (s.next t).x) ^ 2 + ((r.next t).y - (s.next t).y) ^ 2) ≤
      √((r.x - s.x) ^ 2 + (r.y - s.y) ^ 2) + |t| * |r.v - s.v| + t ^ 2 / 2 * |r.a - s.a| +
        (|s.v| * |t| + |s.a| * t ^ 2 / 2) * |δ| +
        (|s.v| * t ^ 2 / 2 + |s.a| * |t| ^ 3 / 3) * |r.yawRate - s.yawRate| := by
  have h1 := (C47_ctra_ode s hs).1.near (C47_ctra_ode r hr).1 hδ t
  have h2 := sqrt_add_le (r.x - s.x) (r.y - s.y) ((r.next t).x - (s.next t).x - (r.x - s.x))
    ((r.next t).y - (s.next t).y - (r.y - s.y))
  rw [add_sub_cancel, add_sub_cancel] at h2
  linarith

/-- two states with all components different, on either side of heading 0 -/
example : SameDir ((⟨1, 2, 3, Angle.ofRad (1 / 100), 1 / 4⟩ : CtrvState).yaw.getAngle -
    (⟨0, 2, 5, Angle.ofRad (-1 / 100), 1 / 3⟩ : CtrvState).yaw.getAngle) (1 / 50) := by
  have := (Angle.sameDir_getAngle (1 / 100)).sub (Angle.sameDir_getAngle (-1 / 100))
  rw [show (1 / 100 - -1 / 100 : ℝ) = 1 / 50 by norm_num] at this
  exact this

/-- an object at the origin, driving along the x axis -/
noncomputable def straightEx (v : ℝ) : CtrvState := ⟨0, 0, v, Angle.ofRad 0, 0⟩

private theorem getAngle_small {δ : ℝ} (h0 : 0 ≤ δ) (h1 : δ ≤ 1) : (Angle.ofRad δ).getAngle = δ :=
  (Angle.sameDir_getAngle δ).eq_of_range (Angle.getAngle_range _)
    ⟨h0, by linarith [Real.pi_gt_three]⟩

/-- C126 cannot be improved: errors of position and speed add up fully. -/
theorem C126_speed_sharp {e f v t : ℝ} (he : 0 ≤ e) (hf : 0 ≤ f) (ht : 0 ≤ t) :
    √((((⟨e, 0, v + f, Angle.ofRad 0, 0⟩ : CtrvState).next t).x - ((straightEx v).next t).x) ^ 2 +
      (((⟨e, 0, v + f, Angle.ofRad 0, 0⟩ : CtrvState).next t).y - ((straightEx v).next t).y) ^ 2) =
      e + t * f := by
  have g0 : (Angle.ofRad 0).getAngle = 0 := getAngle_small le_rfl zero_le_one
  obtain ⟨h1, h2⟩ := CtrvState.next_straight (s := straightEx v) unitsEq_zero_zero t
  obtain ⟨h3, h4⟩ := CtrvState.next_straight
    (s := (⟨e, 0, v + f, Angle.ofRad 0, 0⟩ : CtrvState)) unitsEq_zero_zero t
  rw [h1, h2, h3, h4]
  simp only [straightEx, g0, cos_zero, sin_zero]
  rw [show (e + (v + f) * 1 * t - (0 + v * 1 * t)) ^ 2 + (0 + (v + f) * 0 * t - (0 + v * 0 * t)) ^ 2 =
    (e + t * f) ^ 2 by ring]
  exact Real.sqrt_sq (by positivity)

/-- C126 cannot be improved: a small error of the heading moves the prediction by nearly speed
times duration times the error. -/
theorem C126_heading_sharp {v t δ : ℝ} (hv : 0 ≤ v) (ht : 0 ≤ t) (h0 : 0 < δ) (h1 : δ ≤ 1) :
    v * t * δ * (1 - δ ^ 2 / 6) ≤
    √((((⟨0, 0, v, Angle.ofRad δ, 0⟩ : CtrvState).next t).x - ((straightEx v).next t).x) ^ 2 +
      (((⟨0, 0, v, Angle.ofRad δ, 0⟩ : CtrvState).next t).y - ((straightEx v).next t).y) ^ 2) := by
  have g0 : (Angle.ofRad 0).getAngle = 0 := getAngle_small le_rfl zero_le_one
  have g1 : (Angle.ofRad δ).getAngle = δ := getAngle_small h0.le h1
  obtain ⟨-, h2⟩ := CtrvState.next_straight (s := straightEx v) unitsEq_zero_zero t
  obtain ⟨-, h4⟩ := CtrvState.next_straight
    (s := (⟨0, 0, v, Angle.ofRad δ, 0⟩ : CtrvState)) unitsEq_zero_zero t
  have hy : ((⟨0, 0, v, Angle.ofRad δ, 0⟩ : CtrvState).next t).y - ((straightEx v).next t).y =
      v * t * sin δ := by
    rw [h2, h4]
    simp only [straightEx, g0, g1, sin_zero]
    ring
  rw [hy]
  refine le_trans ?_ (Real.le_sqrt_of_sq_le (x := v * t * sin δ) (le_add_of_nonneg_left (sq_nonneg _)))
  have hs := (Real.sin_gt_sub_cube h0).le
  have := mul_le_mul_of_nonneg_left hs (mul_nonneg hv ht)
  linarith

/-- C126 cannot be improved: a small error of the yaw rate moves the prediction by nearly half
the speed times the square of the duration times the error. -/
theorem C126_rate_sharp {v t ω : ℝ} (hv : 0 ≤ v) (ht : 0 ≤ t) (h0 : 1 / 2 ^ 1022 ≤ ω)
    (h1 : ω * t ≤ 1) :
    v * t ^ 2 / 2 * ω * (1 - 5 / 48 * (ω * t) ^ 2) ≤
    √((((⟨0, 0, v, Angle.ofRad 0, ω⟩ : CtrvState).next t).x - ((straightEx v).next t).x) ^ 2 +
      (((⟨0, 0, v, Angle.ofRad 0, ω⟩ : CtrvState).next t).y - ((straightEx v).next t).y) ^ 2) := by
  have hω : 0 < ω := lt_of_lt_of_le (by positivity) h0
  have g0 : (Angle.ofRad 0).getAngle = 0 := getAngle_small le_rfl zero_le_one
  have hu : ¬ unitsEq ω 0 := by
    rw [unitsEq_zero_iff, abs_of_pos hω, not_lt]
    exact h0
  obtain ⟨-, h2⟩ := CtrvState.next_straight (s := straightEx v) unitsEq_zero_zero t
  obtain ⟨-, h4⟩ := CtrvState.next_turn (s := (⟨0, 0, v, Angle.ofRad 0, ω⟩ : CtrvState)) hu t
  have hy : ((⟨0, 0, v, Angle.ofRad 0, ω⟩ : CtrvState).next t).y - ((straightEx v).next t).y =
      v / ω * (1 - cos (ω * t)) := by
    rw [h2, h4]
    simp only [straightEx, g0, sin_zero, cos_zero, zero_add]
    ring
  rw [hy]
  refine le_trans ?_ (Real.le_sqrt_of_sq_le (x := v / ω * (1 - cos (ω * t))) (le_add_of_nonneg_left (sq_nonneg _)))
  have hc := (abs_le.1 (Real.cos_bound (x := ω * t) (by
    rw [abs_of_nonneg (by positivity)]; exact h1))).2
  rw [abs_of_nonneg (by positivity : 0 ≤ ω * t)] at hc
  have h5 : (ω * t) ^ 2 / 2 - (ω * t) ^ 4 * (5 / 96) ≤ 1 - cos (ω * t) := by linarith
  have := mul_le_mul_of_nonneg_left h5 (div_nonneg hv hω.le)
  refine le_trans (le_of_eq ?_) this
  field_simp
  ring

/-! ## The unscented prediction -/

/-- C126: for all parameters, `predict_to_time` predicts a CTRV object near to where its state
alone is predicted. -/
theorem C126_unscented_ctrv {chol : Chol} (hchol : IsLlt chol) {o p : DynObj CtrvState CtrvCov}
    (hP : o.covariance.PosDef) {α β κ time dt : ℝ} (hdt : dt = time - o.timestamp)
    (h : predict o time (unscentedTransform chol α β κ) = .ok p) :
    √((p.state.x - (o.state.next dt).x) ^ 2 + (p.state.y - (o.state.next dt).y) ^ 2) ≤
      √(5 / (α ^ 2 * (5 + β))) * (|dt| * √(o.covariance 2 2) + |o.state.v| * |dt| * √(o.covariance 3 3) +
        |o.state.v| * dt ^ 2 / 2 * √(o.covariance 4 4)) +
      5 / (α ^ 2 * (5 + β)) * (|o.state.v| * dt ^ 2 / 2 * (1 / 2 ^ 1021)) := by
  have h' := predict_ok h
  rw [← hdt] at h'
  have hN := (C42_defined_iff _ _ _ _ _ _ _).1 ⟨_, h'⟩
  obtain ⟨x, C, h1, h2⟩ := ukfPredict_near hchol o.state hP (β := κ) (κ := β) (α := α)
    (dt := dt) hN (i₀ := 0) (i₁ := 1) (k := 2) (l := 2) (y := 3) (w := 4)
    (by decide) (by decide) (by decide) (by decide) (by decide) (by decide) (abs_nonneg dt) le_rfl
    (cy := |o.state.v| * |dt|) (by positivity) (cw := |o.state.v| * dt ^ 2 / 2) (by positivity)
    (e := 1 / 2 ^ 1021) (fun p δ hδ => near_ctrv o.state p dt hδ)
  rw [zero_mul, add_zero] at h2
  rw [h1] at h'
  simp only [Outcome.ok.injEq, Prod.mk.injEq] at h'
  rw [← h'.1]
  push_cast at h2
  exact h2

/-- C126 for CTRA objects. -/
theorem C126_unscented_ctra {chol : Chol} (hchol : IsLlt chol) {o p : DynObj CtraState CtraCov}
    (hP : o.covariance.PosDef) {α β κ time dt : ℝ} (hdt : dt = time - o.timestamp)
    (h : predict o time (unscentedTransform chol α β κ) = .ok p) :
    √((p.state.x - (o.state.next dt).x) ^ 2 + (p.state.y - (o.state.next dt).y) ^ 2) ≤
      √(6 / (α ^ 2 * (6 + β))) * (|dt| * √(o.covariance 2 2) + dt ^ 2 / 2 * √(o.covariance 5 5) +
        (|o.state.v| * |dt| + |o.state.a| * dt ^ 2 / 2) * √(o.covariance 3 3) +
        (|o.state.v| * dt ^ 2 / 2 + |o.state.a| * |dt| ^ 3 / 3) * √(o.covariance 4 4)) +
      6 / (α ^ 2 * (6 + β)) *
        ((|o.state.v| * dt ^ 2 / 2 + |o.state.a| * |dt| ^ 3 / 3) * (1 / 2 ^ 1021)) := by
  have h' := predict_ok h
  rw [← hdt] at h'
  have hN := (C42_defined_iff _ _ _ _ _ _ _).1 ⟨_, h'⟩
  obtain ⟨x, C, h1, h2⟩ := ukfPredict_near hchol o.state hP (β := κ) (κ := β) (α := α)
    (dt := dt) hN (i₀ := 0) (i₁ := 1) (k := 2) (l := 5) (y := 3) (w := 4)
    (by decide) (by decide) (by decide) (by decide) (by decide) (by decide) (abs_nonneg dt)
    (cl := dt ^ 2 / 2) (by positivity)
    (cy := |o.state.v| * |dt| + |o.state.a| * dt ^ 2 / 2) (by positivity)
    (cw := |o.state.v| * dt ^ 2 / 2 + |o.state.a| * |dt| ^ 3 / 3) (by positivity)
    (e := 1 / 2 ^ 1021) (fun p δ hδ => near_ctra o.state p dt hδ)
  rw [h1] at h'
  simp only [Outcome.ok.injEq, Prod.mk.injEq] at h'
  rw [← h'.1]
  push_cast at h2
  exact h2

/-- C126 for `default_unscented_transform`: a track whose state differs from the true one by the
given errors is predicted near to where the true object will be, if that keeps its speed and yaw
rate. -/
theorem C126_truth {chol : Chol} (hchol : IsLlt chol) (o : DynObj CtrvState CtrvCov)
    (hP : o.covariance.PosDef) (time : ℝ) {r : CtrvState} {X Y : ℝ → ℝ}
    (hr : TurnMotion r.x r.y r.v r.yaw.getAngle r.yawRate 0 X Y) {δ dt : ℝ}
    (hδ : SameDir (r.yaw.getAngle - o.state.yaw.getAngle) δ) (hdt : dt = time - o.timestamp) :
    ∃ p, predict o time (defaultUt chol) = .ok p ∧
      √((X dt - p.state.x) ^ 2 + (Y dt - p.state.y) ^ 2) ≤
        √((r.x - o.state.x) ^ 2 + (r.y - o.state.y) ^ 2) +
        |dt| * (|r.v - o.state.v| + √(5 / 7) * √(o.covariance 2 2)) +
        |o.state.v| * |dt| * (|δ| + √(5 / 7) * √(o.covariance 3 3)) +
        |o.state.v| * dt ^ 2 / 2 *
          (|r.yawRate - o.state.yawRate| + √(5 / 7) * √(o.covariance 4 4) + 1 / 2 ^ 1020) := by
  obtain ⟨p, h, -⟩ := C42_default chol o time
  refine ⟨p, h, ?_⟩
  have h1 := C126_unscented_ctrv hchol hP hdt h
  obtain ⟨e, he, -, hs⟩ := o.state.effective
  have h2 := hs.near hr hδ dt
  have h3 := sqrt_add_le (r.x - o.state.x) (r.y - o.state.y)
    (X dt - (o.state.next dt).x - (r.x - o.state.x)) (Y dt - (o.state.next dt).y - (r.y - o.state.y))
  have h4 := sqrt_add_le (X dt - (o.state.next dt).x) (Y dt - (o.state.next dt).y)
    ((o.state.next dt).x - p.state.x) ((o.state.next dt).y - p.state.y)
  rw [add_sub_cancel, add_sub_cancel] at h3
  rw [sub_add_sub_cancel, sub_add_sub_cancel, ← neg_sub p.state.x (o.state.next dt).x,
    ← neg_sub p.state.y (o.state.next dt).y, neg_sq, neg_sq] at h4
  rw [sub_zero, abs_zero] at h2
  have h5 : |r.yawRate - e| ≤ |r.yawRate - o.state.yawRate| + 1 / 2 ^ 1021 :=
    rate_diff he (by rw [sub_self, abs_zero]; positivity)
  have h6 := mul_le_mul_of_nonneg_left h5 (show 0 ≤ |o.state.v| * dt ^ 2 / 2 by positivity)
  have e7 : (1 : ℝ) ^ 2 * (5 + 2) = 7 := by norm_num
  rw [e7] at h1
  have e8 : (1 : ℝ) / 2 ^ 1020 = 2 * (1 / 2 ^ 1021) := by
    rw [pow_succ (2 : ℝ) 1020]
    field_simp
  have h9 : 0 ≤ |o.state.v| * dt ^ 2 / 2 * (1 / 2 ^ 1021) := by positivity
  rw [e8]
  generalize (1 : ℝ) / 2 ^ 1021 = d at *
  linarith

/-- hypotheses of the theorems on `predict_to_time`: a turning object with unit covariance, and a
true motion that differs in all components -/
example {chol : Chol} : ∃ (o p : DynObj CtrvState CtrvCov) (r : CtrvState) (X Y : ℝ → ℝ) (δ : ℝ),
    o.covariance.PosDef ∧ predict o 1 (unscentedTransform chol 1 2 1) = .ok p ∧
    TurnMotion r.x r.y r.v r.yaw.getAngle r.yawRate 0 X Y ∧
    SameDir (r.yaw.getAngle - o.state.yaw.getAngle) δ ∧ δ ≠ 0 ∧ r.v ≠ o.state.v ∧ r.x ≠ o.state.x ∧
    r.yawRate ≠ o.state.yawRate := by
  obtain ⟨p, hp, -⟩ := C42_default chol
    (⟨0, ⟨0, 2, 5, Angle.ofRad (-1 / 100), 1 / 3⟩, 1, ⟨[1]⟩, .smallVehicle⟩ : DynObj CtrvState CtrvCov) 1
  refine ⟨_, p, ⟨1, 2, 3, Angle.ofRad (1 / 100), 1 / 4⟩, _, _, 1 / 50, Matrix.PosDef.one, hp,
    (C45_ctrv_ode _ quarter_admissible).1, ?_, by norm_num, by norm_num, by norm_num, by norm_num⟩
  have := (Angle.sameDir_getAngle (1 / 100)).sub (Angle.sameDir_getAngle (-1 / 100))
  rw [show (1 / 100 - -1 / 100 : ℝ) = 1 / 50 by norm_num] at this
  exact this

end Mot.Props
