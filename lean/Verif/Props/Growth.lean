import Verif.Proofs.Growth
import Verif.Props.Sensitivity
/-!
# C127: how fast the uncertainty of a position grows under prediction
-/

namespace Mot.Props

open Mot Matrix Spec Real

set_option exponentiation.threshold 2000

/-- C127: for all parameters, the standard deviation of the position of a CTRV object changes by
at most duration times that of the speed, distance times that of the heading and half the speed
times the square of the duration times that of the yaw rate; `d`, the distance from where the
state alone is predicted, enters only if `kappa` is not `alpha²`. -/
theorem C127_ctrv {chol : Chol} (hchol : IsLlt chol) {o p : DynObj CtrvState CtrvCov}
    (hP : o.covariance.PosDef) {α β κ time dt d : ℝ} (hdt : dt = time - o.timestamp)
    (h : predict o time (unscentedTransform chol α β κ) = .ok p)
    (hd : d = √((p.state.x - (o.state.next dt).x) ^ 2 + (p.state.y - (o.state.next dt).y) ^ 2)) :
    √(p.covariance 0 0 + p.covariance 1 1) ≤ √(o.covariance 0 0 + o.covariance 1 1) +
      (|dt| * √(o.covariance 2 2) + |o.state.v| * |dt| * √(o.covariance 3 3) +
        |o.state.v| * dt ^ 2 / 2 * (√(o.covariance 4 4) + √(5 / (α ^ 2 * (5 + β))) * (1 / 2 ^ 1021))) +
      √(max 0 (κ - α ^ 2)) * d ∧
    √(o.covariance 0 0 + o.covariance 1 1) ≤ √(p.covariance 0 0 + p.covariance 1 1) +
      (|dt| * √(o.covariance 2 2) + |o.state.v| * |dt| * √(o.covariance 3 3) +
        |o.state.v| * dt ^ 2 / 2 * (√(o.covariance 4 4) + √(5 / (α ^ 2 * (5 + β))) * (1 / 2 ^ 1021))) +
      √(max 0 (α ^ 2 - κ)) * d := by
  have h' := predict_ok h
  rw [← hdt] at h'
  have hN := (C42_defined_iff _ _ _ _ _ _ _).1 ⟨_, h'⟩
  obtain ⟨x, C, h1, d', hd', h2, h3⟩ := ukfPredict_growth hchol o.state hP (β := κ) (κ := β) (α := α)
    (dt := dt) rfl hN (i₀ := 0) (i₁ := 1) (k := 2) (l := 2) (y := 3) (w := 4)
    (by decide) (by decide) (by decide) (by decide) (by decide) (by decide) (abs_nonneg dt) le_rfl
    (cy := |o.state.v| * |dt|) (by positivity) (cw := |o.state.v| * dt ^ 2 / 2) (by positivity)
    (e := 1 / 2 ^ 1021) (by positivity) (fun p δ hδ => near_ctrv o.state p dt hδ)
  rw [zero_mul, add_zero] at h2 h3
  rw [h1] at h'
  simp only [Outcome.ok.injEq, Prod.mk.injEq] at h'
  rw [← h'.1] at hd
  rw [hd.trans hd'.symm, ← h'.2]
  push_cast at h2 h3
  exact ⟨h2, h3⟩

/-- C127 for CTRA objects. -/
theorem C127_ctra {chol : Chol} (hchol : IsLlt chol) {o p : DynObj CtraState CtraCov}
    (hP : o.covariance.PosDef) {α β κ time dt d : ℝ} (hdt : dt = time - o.timestamp)
    (h : predict o time (unscentedTransform chol α β κ) = .ok p)
    (hd : d = √((p.state.x - (o.state.next dt).x) ^ 2 + (p.state.y - (o.state.next dt).y) ^ 2)) :
    √(p.covariance 0 0 + p.covariance 1 1) ≤ √(o.covariance 0 0 + o.covariance 1 1) +
      (|dt| * √(o.covariance 2 2) + dt ^ 2 / 2 * √(o.covariance 5 5) +
        (|o.state.v| * |dt| + |o.state.a| * dt ^ 2 / 2) * √(o.covariance 3 3) +
        (|o.state.v| * dt ^ 2 / 2 + |o.state.a| * |dt| ^ 3 / 3) *
          (√(o.covariance 4 4) + √(6 / (α ^ 2 * (6 + β))) * (1 / 2 ^ 1021))) +
      √(max 0 (κ - α ^ 2)) * d ∧
    √(o.covariance 0 0 + o.covariance 1 1) ≤ √(p.covariance 0 0 + p.covariance 1 1) +
      (|dt| * √(o.covariance 2 2) + dt ^ 2 / 2 * √(o.covariance 5 5) +
        (|o.state.v| * |dt| + |o.state.a| * dt ^ 2 / 2) * √(o.covariance 3 3) +
        (|o.state.v| * dt ^ 2 / 2 + |o.state.a| * |dt| ^ 3 / 3) *
          (√(o.covariance 4 4) + √(6 / (α ^ 2 * (6 + β))) * (1 / 2 ^ 1021))) +
      √(max 0 (α ^ 2 - κ)) * d := by
  have h' := predict_ok h
  rw [← hdt] at h'
  have hN := (C42_defined_iff _ _ _ _ _ _ _).1 ⟨_, h'⟩
  obtain ⟨x, C, h1, d', hd', h2, h3⟩ := ukfPredict_growth hchol o.state hP (β := κ) (κ := β) (α := α)
    (dt := dt) rfl hN (i₀ := 0) (i₁ := 1) (k := 2) (l := 5) (y := 3) (w := 4)
    (by decide) (by decide) (by decide) (by decide) (by decide) (by decide) (abs_nonneg dt)
    (cl := dt ^ 2 / 2) (by positivity)
    (cy := |o.state.v| * |dt| + |o.state.a| * dt ^ 2 / 2) (by positivity)
    (cw := |o.state.v| * dt ^ 2 / 2 + |o.state.a| * |dt| ^ 3 / 3) (by positivity)
    (e := 1 / 2 ^ 1021) (by positivity) (fun p δ hδ => near_ctra o.state p dt hδ)
  rw [h1] at h'
  simp only [Outcome.ok.injEq, Prod.mk.injEq] at h'
  rw [← h'.1] at hd
  rw [hd.trans hd'.symm, ← h'.2]
  push_cast at h2 h3
  exact ⟨h2, h3⟩

/-- C127 for `default_unscented_transform`. -/
theorem C127_default_ctrv {chol : Chol} (hchol : IsLlt chol) (o : DynObj CtrvState CtrvCov)
    (hP : o.covariance.PosDef) {time dt : ℝ} (hdt : dt = time - o.timestamp) :
    ∃ p, predict o time (defaultUt chol) = .ok p ∧
      |√(p.covariance 0 0 + p.covariance 1 1) - √(o.covariance 0 0 + o.covariance 1 1)| ≤
        |dt| * √(o.covariance 2 2) + |o.state.v| * |dt| * √(o.covariance 3 3) +
          |o.state.v| * dt ^ 2 / 2 * (√(o.covariance 4 4) + 1 / 2 ^ 1021) := by
  obtain ⟨p, h, -⟩ := C42_default chol o time
  refine ⟨p, h, ?_⟩
  obtain ⟨h1, h2⟩ := C127_ctrv hchol hP hdt h rfl
  rw [one_pow, sub_self, max_self, Real.sqrt_zero, zero_mul, add_zero] at h1 h2
  have hs : √(5 / (1 * (5 + 2))) * (1 / 2 ^ 1021 : ℝ) ≤ 1 / 2 ^ 1021 := by
    refine mul_le_of_le_one_left (by positivity) ?_
    exact Real.sqrt_le_one.2 (by norm_num)
  have h3 := mul_le_mul_of_nonneg_left (add_le_add_right hs (√(o.covariance 4 4)))
    (show 0 ≤ |o.state.v| * dt ^ 2 / 2 by positivity)
  generalize √(5 / (1 * (5 + 2))) * (1 / 2 ^ 1021 : ℝ) = q at *
  generalize (1 / 2 ^ 1021 : ℝ) = r at *
  rw [abs_le]
  constructor <;> linarith

/-- C127 for `default_unscented_transform` and CTRA objects. -/
theorem C127_default_ctra {chol : Chol} (hchol : IsLlt chol) (o : DynObj CtraState CtraCov)
    (hP : o.covariance.PosDef) {time dt : ℝ} (hdt : dt = time - o.timestamp) :
    ∃ p, predict o time (defaultUt chol) = .ok p ∧
      |√(p.covariance 0 0 + p.covariance 1 1) - √(o.covariance 0 0 + o.covariance 1 1)| ≤
        |dt| * √(o.covariance 2 2) + dt ^ 2 / 2 * √(o.covariance 5 5) +
        (|o.state.v| * |dt| + |o.state.a| * dt ^ 2 / 2) * √(o.covariance 3 3) +
        (|o.state.v| * dt ^ 2 / 2 + |o.state.a| * |dt| ^ 3 / 3) * (√(o.covariance 4 4) + 1 / 2 ^ 1021) := by
  obtain ⟨p, h, -⟩ := C42_default chol o time
  refine ⟨p, h, ?_⟩
  obtain ⟨h1, h2⟩ := C127_ctra hchol hP hdt h rfl
  rw [one_pow, sub_self, max_self, Real.sqrt_zero, zero_mul, add_zero] at h1 h2
  have hs : √(6 / (1 * (6 + 2))) * (1 / 2 ^ 1021 : ℝ) ≤ 1 / 2 ^ 1021 := by
    refine mul_le_of_le_one_left (by positivity) ?_
    exact Real.sqrt_le_one.2 (by norm_num)
  have h3 := mul_le_mul_of_nonneg_left (add_le_add_right hs (√(o.covariance 4 4)))
    (show 0 ≤ |o.state.v| * dt ^ 2 / 2 + |o.state.a| * |dt| ^ 3 / 3 by positivity)
  generalize √(6 / (1 * (6 + 2))) * (1 / 2 ^ 1021 : ℝ) = q at *
  generalize (1 / 2 ^ 1021 : ℝ) = r at *
  rw [abs_le]
  constructor <;> linarith

/-- C127: the last member of `UnscentedTransform` (passed on as `beta`) does not change the
predicted position and adds itself times `d²` to the sum of its variances. -/
theorem C127_kappa {chol : Chol} {o p q : DynObj CtrvState CtrvCov} {α β κ κ' time dt d : ℝ}
    (hdt : dt = time - o.timestamp)
    (h : predict o time (unscentedTransform chol α β κ) = .ok p)
    (h' : predict o time (unscentedTransform chol α β κ') = .ok q)
    (hd : d = √((p.state.x - (o.state.next dt).x) ^ 2 + (p.state.y - (o.state.next dt).y) ^ 2)) :
    q.state.x = p.state.x ∧ q.state.y = p.state.y ∧
    q.covariance 0 0 + q.covariance 1 1 = p.covariance 0 0 + p.covariance 1 1 + (κ' - κ) * d ^ 2 := by
  have k := predict_ok h
  have k' := predict_ok h'
  rw [← hdt] at k k'
  have hN := (C42_defined_iff _ _ _ _ _ _ _).1 ⟨_, k⟩
  obtain ⟨x, C, h1, hx⟩ := ukfPredict_variance chol o.state o.covariance (dt := dt) (β := κ) rfl hN
  obtain ⟨x', C', h1', hx'⟩ := ukfPredict_variance chol o.state o.covariance (dt := dt) (β := κ') rfl hN
  rw [h1] at k
  rw [h1'] at k'
  simp only [Outcome.ok.injEq, Prod.mk.injEq] at k k'
  obtain ⟨a0, b0⟩ := hx 0 (by decide)
  obtain ⟨a1, b1⟩ := hx 1 (by decide)
  obtain ⟨a0', b0'⟩ := hx' 0 (by decide)
  obtain ⟨a1', b1'⟩ := hx' 1 (by decide)
  have e0 : x' 0 = x 0 := by linarith
  have e1 : x' 1 = x 1 := by linarith
  rw [e0] at b0'
  rw [e1] at b1'
  have hd2 : d ^ 2 = (x 0 - (o.state.next dt).x) ^ 2 + (x 1 - (o.state.next dt).y) ^ 2 := by
    rw [hd, Real.sq_sqrt (by positivity), ← k.1]
    rfl
  rw [← k.1, ← k'.1, ← k.2, ← k'.2]
  refine ⟨e0, e1, ?_⟩
  rw [b0, b1, b0', b1', hd2]
  change _ + (κ' - α ^ 2) * (x 0 - (o.state.next dt).x) ^ 2 +
    (_ + (κ' - α ^ 2) * (x 1 - (o.state.next dt).y) ^ 2) =
    _ + (κ - α ^ 2) * (x 0 - (o.state.next dt).x) ^ 2 +
    (_ + (κ - α ^ 2) * (x 1 - (o.state.next dt).y) ^ 2) + _
  ring

/-- hypotheses of C127: a moving, turning object with unit covariance, and parameters with
`kappa` above `alpha²` -/
example {chol : Chol} : ∃ o p : DynObj CtrvState CtrvCov, o.covariance.PosDef ∧ o.state.v ≠ 0 ∧
    o.state.yawRate ≠ 0 ∧ predict o 1 (unscentedTransform chol 1 2 3) = .ok p := by
  obtain ⟨⟨s, C⟩, h⟩ := (C42_defined_iff chol (⟨0, 2, 5, Angle.ofRad (-1 / 100), 1 / 3⟩ : CtrvState)
    (1 : CtrvCov) (1 - 0) 1 3 2).2 (by norm_num)
  exact ⟨⟨0, _, 1, ⟨[1]⟩, .smallVehicle⟩, _, Matrix.PosDef.one, by norm_num, by norm_num,
    (C37_swapped chol 1 2 3 1 ⟨0, _, 1, ⟨[1]⟩, .smallVehicle⟩).2 _ _ h⟩

end Mot.Props
