import Verif.Proofs.Displacement
import Verif.Proofs.TwoSteps
import Verif.Props.LinearPart
import Verif.Props.Motion
import Verif.Props.Singular
/-!
# C113, C114: how far prediction moves an object, prediction in two steps
-/

namespace Mot.Props

open Mot Matrix Spec

private theorem predict_time {S : Type} {n : ℕ} [MotionModel S n] {chol : Chol} {α β κ time : ℝ}
    {o p : DynObj S (Matrix (Fin n) (Fin n) ℝ)}
    (h : predict o time (unscentedTransform chol α β κ) = .ok p) : p.timestamp = time := by
  have h' := predict_ok h
  rw [(C37_swapped chol α β κ time o).2 _ _ h'] at h
  rw [← Outcome.ok.inj h]

/-- C113: if no weight is negative, prediction moves a CTRV object by at most the duration
times the root mean square of the speed. -/
theorem C113_ctrv {chol : Chol} (hchol : IsLlt chol) {o p : DynObj CtrvState CtrvCov}
    (hP : o.covariance.PosDef) {α β κ time : ℝ} (hn : 5 ≤ α ^ 2 * (5 + β))
    (h : predict o time (unscentedTransform chol α β κ) = .ok p) :
    √((p.state.x - o.state.x) ^ 2 + (p.state.y - o.state.y) ^ 2) ≤
      |time - o.timestamp| * √(o.state.v ^ 2 + o.covariance 2 2) := by
  have h' := predict_ok h
  obtain ⟨x, C, h1, h2⟩ := ukfPredict_displacement hchol o.state hP (β := κ) (κ := β) (α := α)
    (dt := time - o.timestamp) (by push_cast; linarith) (by push_cast; exact hn)
    (i₀ := 0) (i₁ := 1) (k := 2) (l := 2)
    (by decide) (by decide) (by decide) (by decide) (abs_nonneg (time - o.timestamp)) le_rfl (by
      intro q
      rw [zero_mul, add_zero, mul_comm, ← abs_mul]
      exact (C50_displacement q _).1)
  rw [zero_mul, add_zero] at h2
  rw [h1] at h'
  simp only [Outcome.ok.injEq, Prod.mk.injEq] at h'
  rw [← h'.1]
  exact h2

/-- C113 for CTRA objects. -/
theorem C113_ctra {chol : Chol} (hchol : IsLlt chol) {o p : DynObj CtraState CtraCov}
    (hP : o.covariance.PosDef) {α β κ time : ℝ} (hn : 6 ≤ α ^ 2 * (6 + β))
    (h : predict o time (unscentedTransform chol α β κ) = .ok p) :
    √((p.state.x - o.state.x) ^ 2 + (p.state.y - o.state.y) ^ 2) ≤
      |time - o.timestamp| * √(o.state.v ^ 2 + o.covariance 2 2) +
        (time - o.timestamp) ^ 2 / 2 * √(o.state.a ^ 2 + o.covariance 5 5) := by
  have h' := predict_ok h
  obtain ⟨x, C, h1, h2⟩ := ukfPredict_displacement hchol o.state hP (β := κ) (κ := β) (α := α)
    (dt := time - o.timestamp) (by push_cast; linarith) (by push_cast; exact hn)
    (i₀ := 0) (i₁ := 1) (k := 2) (l := 5)
    (by decide) (by decide) (by decide) (by decide) (abs_nonneg (time - o.timestamp))
    (c₂ := (time - o.timestamp) ^ 2 / 2) (by positivity) (by
      intro q
      refine (C50_displacement_ctra q _).1.trans (le_of_eq ?_)
      rw [abs_mul]
      show |q.v| * _ + |q.a| * _ / 2 = _ * |q.v| + _ * |q.a|
      ring)
  rw [h1] at h'
  simp only [Outcome.ok.injEq, Prod.mk.injEq] at h'
  rw [← h'.1]
  exact h2

/-- C113 for `default_unscented_transform`: the prediction exists and keeps the bound. -/
theorem C113_default {chol : Chol} (hchol : IsLlt chol) (o : DynObj CtrvState CtrvCov)
    (hP : o.covariance.PosDef) (time : ℝ) :
    ∃ p, predict o time (defaultUt chol) = .ok p ∧
      √((p.state.x - o.state.x) ^ 2 + (p.state.y - o.state.y) ^ 2) ≤
        |time - o.timestamp| * √(o.state.v ^ 2 + o.covariance 2 2) := by
  obtain ⟨p, h, -⟩ := C42_default chol o time
  exact ⟨p, h, C113_ctrv hchol hP (by norm_num) h⟩

/-- C113 for `default_unscented_transform` and CTRA objects. -/
theorem C113_default_ctra {chol : Chol} (hchol : IsLlt chol) (o : DynObj CtraState CtraCov)
    (hP : o.covariance.PosDef) (time : ℝ) :
    ∃ p, predict o time (defaultUt chol) = .ok p ∧
      √((p.state.x - o.state.x) ^ 2 + (p.state.y - o.state.y) ^ 2) ≤
        |time - o.timestamp| * √(o.state.v ^ 2 + o.covariance 2 2) +
          (time - o.timestamp) ^ 2 / 2 * √(o.state.a ^ 2 + o.covariance 5 5) := by
  obtain ⟨p, h, -⟩ := C42_default chol o time
  exact ⟨p, h, C113_ctra hchol hP (by norm_num) h⟩

/-- C113 needs the weights not to be negative: with `UnscentedTransform{1/√7, 2, κ}` an object
at 7 m/s along the x axis, with speed variance 1, is predicted one second ahead 28 m behind
its position. -/
theorem C113_far {chol : Chol} (hchol : IsLlt chol) {α : ℝ} (hα : α ^ 2 = 1 / 7) (κ : ℝ) :
    ∃ o p : DynObj CtrvState CtrvCov, MotionLaws.Valid o.state ∧ o.covariance.PosDef ∧
      o.state.v = 7 ∧ o.state.yaw = Angle.ofRad 0 ∧ o.covariance 2 2 = 1 ∧
      predict o (o.timestamp + 1) (unscentedTransform chol α 2 κ) = .ok p ∧
      p.state.x - o.state.x = -28 := by
  obtain ⟨s, C, h, hx⟩ := far_predict hchol hα κ
  refine ⟨⟨0, eastState, coupledRoot * coupledRootᵀ, ⟨[1]⟩, .smallVehicle⟩,
    ⟨1, s, C, ⟨[1]⟩, .smallVehicle⟩, Angle.valid_ofRad _, coupledRoot_cholesky.posDef, rfl, rfl, ?_,
    ?_, ?_⟩
  · show (coupledRoot * coupledRootᵀ) 2 2 = 1
    rw [mul_apply, Fin.sum_univ_five]
    simp [coupledRoot]
  · have := (C37_swapped chol α 2 κ 1
      (⟨0, eastState, coupledRoot * coupledRootᵀ, ⟨[1]⟩, .smallVehicle⟩ :
        DynObj CtrvState CtrvCov)).2 s C (by
        show ukfPredict chol eastState _ (1 - 0) α κ 2 = _
        rw [sub_zero]; exact h)
    simpa using this
  · show s.x - 0 = -28
    rw [hx, sub_zero]

/-! ## C114: two steps -/

/-- C114: the speed, the yaw rate and their covariances do not depend on whether a CTRV
object is predicted in one step or in two. -/
theorem C114_ctrv {chol : Chol} (hchol : IsLlt chol) {o p q r : DynObj CtrvState CtrvCov}
    (hP : o.covariance.PosDef) (hp : p.covariance.PosDef) {α β κ t₁ t₂ : ℝ}
    (h1 : predict o t₁ (unscentedTransform chol α β κ) = .ok p)
    (h2 : predict p t₂ (unscentedTransform chol α β κ) = .ok q)
    (h : predict o t₂ (unscentedTransform chol α β κ) = .ok r) :
    q.timestamp = r.timestamp ∧ q.state.v = r.state.v ∧ q.state.yawRate = r.state.yawRate ∧
    q.covariance 2 2 = r.covariance 2 2 ∧ q.covariance 2 4 = r.covariance 2 4 ∧
    q.covariance 4 4 = r.covariance 4 4 := by
  have a := C84_ctrv hchol hP h1
  have b := C84_ctrv hchol hp h2
  have c := C84_ctrv hchol hP h
  refine ⟨(predict_time h2).trans (predict_time h).symm, ?_, ?_, ?_, ?_, ?_⟩
  · rw [b.1, a.1, c.1]
  · rw [b.2.1, a.2.1, c.2.1]
  · rw [b.2.2.1, a.2.2.1, c.2.2.1]
  · rw [b.2.2.2.1, a.2.2.2.1, c.2.2.2.1]
  · rw [b.2.2.2.2.2, a.2.2.2.2.2, c.2.2.2.2.2]

/-- C114 for CTRA objects: also the acceleration. -/
theorem C114_ctra {chol : Chol} (hchol : IsLlt chol) {o p q r : DynObj CtraState CtraCov}
    (hP : o.covariance.PosDef) (hp : p.covariance.PosDef) {α β κ t₁ t₂ : ℝ}
    (h1 : predict o t₁ (unscentedTransform chol α β κ) = .ok p)
    (h2 : predict p t₂ (unscentedTransform chol α β κ) = .ok q)
    (h : predict o t₂ (unscentedTransform chol α β κ) = .ok r) :
    q.timestamp = r.timestamp ∧ q.state.v = r.state.v ∧ q.state.yawRate = r.state.yawRate ∧
    q.state.a = r.state.a ∧
    q.covariance 2 2 = r.covariance 2 2 ∧ q.covariance 2 4 = r.covariance 2 4 ∧
    q.covariance 2 5 = r.covariance 2 5 ∧ q.covariance 4 4 = r.covariance 4 4 ∧
    q.covariance 4 5 = r.covariance 4 5 ∧ q.covariance 5 5 = r.covariance 5 5 := by
  obtain ⟨a1, a2, a3, a4, a5, a6, a7, a8, a9⟩ := C84_ctra hchol hP h1
  obtain ⟨b1, b2, b3, b4, b5, b6, b7, b8, b9⟩ := C84_ctra hchol hp h2
  obtain ⟨c1, c2, c3, c4, c5, c6, c7, c8, c9⟩ := C84_ctra hchol hP h
  rw [predict_time h1] at b1 b4 b5 b6
  refine ⟨(predict_time h2).trans (predict_time h).symm, ?_, ?_, ?_, ?_, ?_, ?_, ?_, ?_, ?_⟩
  · rw [b1, a1, a3, c1]; ring
  · rw [b2, a2, c2]
  · rw [b3, a3, c3]
  · rw [b4, a4, a6, a9, c4]; ring
  · rw [b5, a5, a8, c5]; ring
  · rw [b6, a6, a9, c6]; ring
  · rw [b7, a7, c7]
  · rw [b8, a8, c8]
  · rw [b9, a9, c9]

/-- C114: the heading and its covariances as well, if in the first and in the whole step the
headings of the sigma points stay between 0 and the cut. -/
theorem C114_heading {chol : Chol} (hchol : IsLlt chol) {o p q r : DynObj CtrvState CtrvCov}
    (hP : o.covariance.PosDef) (hp : p.covariance.PosDef) {α β κ t₁ t₂ c₁ c₂ : ℝ}
    (h1 : predict o t₁ (unscentedTransform chol α β κ) = .ok p)
    (h2 : predict p t₂ (unscentedTransform chol α β κ) = .ok q)
    (h : predict o t₂ (unscentedTransform chol α β κ) = .ok r)
    (hc1 : SameDir c₁ (o.state.yaw.getAngle + (t₁ - o.timestamp) * o.state.yawRate))
    (hc2 : SameDir c₂ (o.state.yaw.getAngle + (t₂ - o.timestamp) * o.state.yawRate))
    (hr1 : √(α ^ 2 * (5 + β) * (o.covariance 3 3 + 2 * (t₁ - o.timestamp) * o.covariance 3 4 +
      (t₁ - o.timestamp) ^ 2 * o.covariance 4 4)) ≤ min c₁ (yawCut - c₁))
    (hr2 : √(α ^ 2 * (5 + β) * (o.covariance 3 3 + 2 * (t₂ - o.timestamp) * o.covariance 3 4 +
      (t₂ - o.timestamp) ^ 2 * o.covariance 4 4)) ≤ min c₂ (yawCut - c₂)) :
    q.state.yaw = r.state.yaw ∧ q.covariance 3 3 = r.covariance 3 3 ∧
    q.covariance 3 4 = r.covariance 3 4 ∧ q.covariance 2 3 = r.covariance 2 3 := by
  have hN : 0 < α ^ 2 * (5 + β) := by
    have := (C42_defined_iff _ _ _ _ _ _ _).1 ⟨_, predict_ok h⟩
    push_cast at this
    exact this
  rw [le_min_iff] at hr1 hr2
  obtain ⟨p', hp', a1, a2, a3, a4⟩ := C84_heading_ctrv hchol hP (κ := κ) rfl hN hc1 rfl hr1.1
    (by linarith [hr1.2])
  obtain rfl : p' = p := by rw [h1] at hp'; exact (Outcome.ok.inj hp').symm
  obtain ⟨r', hr', c1, c2, c3, c4⟩ := C84_heading_ctrv hchol hP (κ := κ) rfl hN hc2 rfl hr2.1
    (by linarith [hr2.2])
  obtain rfl : r' = r := by rw [h] at hr'; exact (Outcome.ok.inj hr').symm
  obtain ⟨-, ω1, -, w24, -, w44⟩ := C84_ctrv hchol hP h1
  have ht := predict_time h1
  have hv : p'.covariance 3 3 + 2 * (t₂ - p'.timestamp) * p'.covariance 3 4 +
      (t₂ - p'.timestamp) ^ 2 * p'.covariance 4 4 = o.covariance 3 3 +
      2 * (t₂ - o.timestamp) * o.covariance 3 4 + (t₂ - o.timestamp) ^ 2 * o.covariance 4 4 := by
    rw [a2, a3, w44, ht]; ring
  have hdir : SameDir c₂ (p'.state.yaw.getAngle + (t₂ - p'.timestamp) * p'.state.yawRate) := by
    rw [a1, ω1, ht]
    refine hc2.trans (SameDir.symm ?_)
    have h3 := (((Angle.sameDir_getAngle c₁).trans hc1).add
      (SameDir.refl ((t₂ - t₁) * o.state.yawRate)))
    rw [show o.state.yaw.getAngle + (t₁ - o.timestamp) * o.state.yawRate +
      (t₂ - t₁) * o.state.yawRate = o.state.yaw.getAngle + (t₂ - o.timestamp) * o.state.yawRate by
      ring] at h3
    exact h3
  obtain ⟨q', hq', b1, b2, b3, b4⟩ := C84_heading_ctrv hchol hp (κ := κ) rfl hN hdir rfl
    (by rw [hv]; exact hr2.1) (by rw [hv]; linarith [hr2.2])
  obtain rfl : q' = q := by rw [h2] at hq'; exact (Outcome.ok.inj hq').symm
  refine ⟨by rw [b1, c1], by rw [b2, hv, c2], ?_, ?_⟩
  · rw [b3, a3, w44, ht, c3]; ring
  · rw [b4, a4, w24, ht, c4]; ring

/-- C114, the heading of CTRA objects. -/
theorem C114_heading_ctra {chol : Chol} (hchol : IsLlt chol) {o p q r : DynObj CtraState CtraCov}
    (hP : o.covariance.PosDef) (hp : p.covariance.PosDef) {α β κ t₁ t₂ c₁ c₂ : ℝ}
    (h1 : predict o t₁ (unscentedTransform chol α β κ) = .ok p)
    (h2 : predict p t₂ (unscentedTransform chol α β κ) = .ok q)
    (h : predict o t₂ (unscentedTransform chol α β κ) = .ok r)
    (hc1 : SameDir c₁ (o.state.yaw.getAngle + (t₁ - o.timestamp) * o.state.yawRate))
    (hc2 : SameDir c₂ (o.state.yaw.getAngle + (t₂ - o.timestamp) * o.state.yawRate))
    (hr1 : √(α ^ 2 * (6 + β) * (o.covariance 3 3 + 2 * (t₁ - o.timestamp) * o.covariance 3 4 +
      (t₁ - o.timestamp) ^ 2 * o.covariance 4 4)) ≤ min c₁ (yawCut - c₁))
    (hr2 : √(α ^ 2 * (6 + β) * (o.covariance 3 3 + 2 * (t₂ - o.timestamp) * o.covariance 3 4 +
      (t₂ - o.timestamp) ^ 2 * o.covariance 4 4)) ≤ min c₂ (yawCut - c₂)) :
    q.state.yaw = r.state.yaw ∧ q.covariance 3 3 = r.covariance 3 3 ∧
    q.covariance 3 4 = r.covariance 3 4 ∧ q.covariance 2 3 = r.covariance 2 3 ∧
    q.covariance 3 5 = r.covariance 3 5 := by
  have hN : 0 < α ^ 2 * (6 + β) := by
    have := (C42_defined_iff _ _ _ _ _ _ _).1 ⟨_, predict_ok h⟩
    push_cast at this
    exact this
  rw [le_min_iff] at hr1 hr2
  obtain ⟨p', hp', a1, a2, a3, a4, a5⟩ := C84_heading_ctra hchol hP (κ := κ) rfl hN hc1 rfl hr1.1
    (by linarith [hr1.2])
  obtain rfl : p' = p := by rw [h1] at hp'; exact (Outcome.ok.inj hp').symm
  obtain ⟨r', hr', c1, c2, c3, c4, c5⟩ := C84_heading_ctra hchol hP (κ := κ) rfl hN hc2 rfl hr2.1
    (by linarith [hr2.2])
  obtain rfl : r' = r := by rw [h] at hr'; exact (Outcome.ok.inj hr').symm
  obtain ⟨-, ω1, -, -, w24, -, w44, w45, -⟩ := C84_ctra hchol hP h1
  have ht := predict_time h1
  have hv : p'.covariance 3 3 + 2 * (t₂ - p'.timestamp) * p'.covariance 3 4 +
      (t₂ - p'.timestamp) ^ 2 * p'.covariance 4 4 = o.covariance 3 3 +
      2 * (t₂ - o.timestamp) * o.covariance 3 4 + (t₂ - o.timestamp) ^ 2 * o.covariance 4 4 := by
    rw [a2, a3, w44, ht]; ring
  have hdir : SameDir c₂ (p'.state.yaw.getAngle + (t₂ - p'.timestamp) * p'.state.yawRate) := by
    rw [a1, ω1, ht]
    refine hc2.trans (SameDir.symm ?_)
    have h3 := (((Angle.sameDir_getAngle c₁).trans hc1).add
      (SameDir.refl ((t₂ - t₁) * o.state.yawRate)))
    rw [show o.state.yaw.getAngle + (t₁ - o.timestamp) * o.state.yawRate +
      (t₂ - t₁) * o.state.yawRate = o.state.yaw.getAngle + (t₂ - o.timestamp) * o.state.yawRate by
      ring] at h3
    exact h3
  obtain ⟨q', hq', b1, b2, b3, b4, b5⟩ := C84_heading_ctra hchol hp (κ := κ) rfl hN hdir rfl
    (by rw [hv]; exact hr2.1) (by rw [hv]; linarith [hr2.2])
  obtain rfl : q' = q := by rw [h2] at hq'; exact (Outcome.ok.inj hq').symm
  refine ⟨by rw [b1, c1], by rw [b2, hv, c2], ?_, ?_, ?_⟩
  · rw [b3, a3, w44, ht, c3]; ring
  · rw [b4, a4, a5, w24, w45, ht, c4]
    ring
  · rw [b5, a5, w45, ht, c5]; ring

/-- C114 does not hold for positions: an object driving along the y axis at 1 m/s, predicted
with `default_unscented_transform` by one second twice, is behind the same object predicted by
two seconds at once. -/
theorem C114_position_false {chol : Chol} (hchol : IsLlt chol) :
    ∃ o p q r : DynObj CtrvState CtrvCov, MotionLaws.Valid o.state ∧ o.covariance.PosDef ∧
      p.covariance.PosDef ∧
      predict o (o.timestamp + 1) (defaultUt chol) = .ok p ∧
      predict p (o.timestamp + 2) (defaultUt chol) = .ok q ∧
      predict o (o.timestamp + 2) (defaultUt chol) = .ok r ∧ q.state.y < r.state.y := by
  obtain ⟨P, P₁, P₂, P₁₂, y₁, y₂, y₁₂, hP, hP1, h1, h12, h2, hlt⟩ := two_steps hchol
  refine ⟨⟨0, northState 0, P, ⟨[1]⟩, .smallVehicle⟩, ⟨1, northState y₁, P₁, ⟨[1]⟩, .smallVehicle⟩,
    ⟨2, northState y₁₂, P₁₂, ⟨[1]⟩, .smallVehicle⟩, ⟨2, northState y₂, P₂, ⟨[1]⟩, .smallVehicle⟩,
    Angle.valid_ofRad _, hP, hP1, ?_, ?_, ?_, hlt⟩
  · have := (C37_swapped chol 1 2 1 1
      (⟨0, northState 0, P, ⟨[1]⟩, .smallVehicle⟩ : DynObj CtrvState CtrvCov)).2 (northState y₁) P₁
      (by show ukfPredict chol _ P (1 - 0) 1 1 2 = _; rw [sub_zero]; exact h1)
    simpa [defaultUt] using this
  · have := (C37_swapped chol 1 2 1 2
      (⟨1, northState y₁, P₁, ⟨[1]⟩, .smallVehicle⟩ : DynObj CtrvState CtrvCov)).2 (northState y₁₂)
      P₁₂ (by
        show ukfPredict chol _ P₁ (2 - 1) 1 1 2 = _
        rw [show (2 - 1 : ℝ) = 1 by norm_num]; exact h12)
    simpa [defaultUt] using this
  · have := (C37_swapped chol 1 2 1 2
      (⟨0, northState 0, P, ⟨[1]⟩, .smallVehicle⟩ : DynObj CtrvState CtrvCov)).2 (northState y₂) P₂
      (by show ukfPredict chol _ P (2 - 0) 1 1 2 = _; rw [sub_zero]; exact h2)
    simpa [defaultUt] using this

/-- objects that meet the hypotheses of `C114_heading` -/
example {chol : Chol} (hchol : IsLlt chol) : ∃ o p q r : DynObj CtrvState CtrvCov,
    o.covariance.PosDef ∧ p.covariance.PosDef ∧
    predict o 1 (unscentedTransform chol 1 2 1) = .ok p ∧
    predict p 2 (unscentedTransform chol 1 2 1) = .ok q ∧
    predict o 2 (unscentedTransform chol 1 2 1) = .ok r ∧ ∃ c₁ c₂ : ℝ,
    SameDir c₁ (o.state.yaw.getAngle + (1 - o.timestamp) * o.state.yawRate) ∧
    SameDir c₂ (o.state.yaw.getAngle + (2 - o.timestamp) * o.state.yawRate) ∧
    √(1 ^ 2 * (5 + 2) * (o.covariance 3 3 + 2 * (1 - o.timestamp) * o.covariance 3 4 +
      (1 - o.timestamp) ^ 2 * o.covariance 4 4)) ≤ min c₁ (yawCut - c₁) ∧
    √(1 ^ 2 * (5 + 2) * (o.covariance 3 3 + 2 * (2 - o.timestamp) * o.covariance 3 4 +
      (2 - o.timestamp) ^ 2 * o.covariance 4 4)) ≤ min c₂ (yawCut - c₂) := by
  obtain ⟨o, ho⟩ : ∃ o : DynObj CtrvState CtrvCov, o = ⟨0, ⟨1, 2, 3, Angle.ofRad (3 / 2), 1 / 10⟩,
    Matrix.diagonal fun _ => 1 / 1000, ⟨[1]⟩, .unknown⟩ := ⟨_, rfl⟩
  have hP : o.covariance = Matrix.diagonal fun _ => 1 / 1000 := by rw [ho]
  obtain ⟨p, hp, hpd⟩ := C115_one_radian hchol hP (fun _ => by norm_num) (by norm_num) 1
  obtain ⟨q, hq, -⟩ := C42_default chol p 2
  obtain ⟨r, hr, -⟩ := C42_default chol o 2
  have h3 := Real.pi_gt_three
  have hc := yawCut_bounds.1
  have hyaw : o.state.yaw.getAngle = 3 / 2 := by
    rw [ho]; exact Angle.getAngle_ofRad_of_range ⟨by norm_num, by linarith⟩
  have hw : o.state.yawRate = 1 / 10 := by rw [ho]
  have ht : o.timestamp = 0 := by rw [ho]
  have e33 : o.covariance 3 3 = 1 / 1000 := by rw [hP]; simp
  have e34 : o.covariance 3 4 = 0 := by rw [hP]; simp
  have e44 : o.covariance 4 4 = 1 / 1000 := by rw [hP]; simp
  refine ⟨o, p, q, r, ?_, hpd, hp, hq, hr, 16 / 10, 17 / 10, ?_, ?_, ?_, ?_⟩
  · rw [hP]; exact PosDef.diagonal fun _ => by norm_num
  · rw [hyaw, hw, ht]; norm_num; exact SameDir.refl _
  · rw [hyaw, hw, ht]; norm_num; exact SameDir.refl _
  · rw [e33, e34, e44, ht]
    refine (Real.sqrt_le_sqrt (y := 1 ^ 2) (by norm_num)).trans ?_
    rw [Real.sqrt_sq one_pos.le]
    exact le_min (by norm_num) (by linarith)
  · rw [e33, e34, e44, ht]
    refine (Real.sqrt_le_sqrt (y := 1 ^ 2) (by norm_num)).trans ?_
    rw [Real.sqrt_sq one_pos.le]
    exact le_min (by norm_num) (by linarith)

/-- objects that meet the hypotheses of `C114_heading_ctra` -/
example {chol : Chol} (hchol : IsLlt chol) : ∃ o p q r : DynObj CtraState CtraCov,
    o.covariance.PosDef ∧ p.covariance.PosDef ∧
    predict o 1 (unscentedTransform chol 1 2 1) = .ok p ∧
    predict p 2 (unscentedTransform chol 1 2 1) = .ok q ∧
    predict o 2 (unscentedTransform chol 1 2 1) = .ok r ∧ ∃ c₁ c₂ : ℝ,
    SameDir c₁ (o.state.yaw.getAngle + (1 - o.timestamp) * o.state.yawRate) ∧
    SameDir c₂ (o.state.yaw.getAngle + (2 - o.timestamp) * o.state.yawRate) ∧
    √(1 ^ 2 * (6 + 2) * (o.covariance 3 3 + 2 * (1 - o.timestamp) * o.covariance 3 4 +
      (1 - o.timestamp) ^ 2 * o.covariance 4 4)) ≤ min c₁ (yawCut - c₁) ∧
    √(1 ^ 2 * (6 + 2) * (o.covariance 3 3 + 2 * (2 - o.timestamp) * o.covariance 3 4 +
      (2 - o.timestamp) ^ 2 * o.covariance 4 4)) ≤ min c₂ (yawCut - c₂) := by
  obtain ⟨o, ho⟩ : ∃ o : DynObj CtraState CtraCov, o = ⟨0, ⟨1, 2, 3, Angle.ofRad (3 / 2), 1 / 10, 2⟩,
    Matrix.diagonal fun _ => 1 / 1000, ⟨[1]⟩, .unknown⟩ := ⟨_, rfl⟩
  have hP : o.covariance = Matrix.diagonal fun _ => 1 / 1000 := by rw [ho]
  obtain ⟨p, hp, hpd⟩ := C115_one_radian_ctra hchol hP (fun _ => by norm_num) (by norm_num) 1
  obtain ⟨q, hq, -⟩ := C42_default chol p 2
  obtain ⟨r, hr, -⟩ := C42_default chol o 2
  have h3 := Real.pi_gt_three
  have hc := yawCut_bounds.1
  have hyaw : o.state.yaw.getAngle = 3 / 2 := by
    rw [ho]; exact Angle.getAngle_ofRad_of_range ⟨by norm_num, by linarith⟩
  have hw : o.state.yawRate = 1 / 10 := by rw [ho]
  have ht : o.timestamp = 0 := by rw [ho]
  have e33 : o.covariance 3 3 = 1 / 1000 := by rw [hP]; simp
  have e34 : o.covariance 3 4 = 0 := by rw [hP]; simp
  have e44 : o.covariance 4 4 = 1 / 1000 := by rw [hP]; simp
  refine ⟨o, p, q, r, ?_, hpd, hp, hq, hr, 16 / 10, 17 / 10, ?_, ?_, ?_, ?_⟩
  · rw [hP]; exact PosDef.diagonal fun _ => by norm_num
  · rw [hyaw, hw, ht]; norm_num; exact SameDir.refl _
  · rw [hyaw, hw, ht]; norm_num; exact SameDir.refl _
  · rw [e33, e34, e44, ht]
    refine (Real.sqrt_le_sqrt (y := 1 ^ 2) (by norm_num)).trans ?_
    rw [Real.sqrt_sq one_pos.le]
    exact le_min (by norm_num) (by linarith)
  · rw [e33, e34, e44, ht]
    refine (Real.sqrt_le_sqrt (y := 1 ^ 2) (by norm_num)).trans ?_
    rw [Real.sqrt_sq one_pos.le]
    exact le_min (by norm_num) (by linarith)

/-- a factor α as required by `C113_far`, and a factorisation -/
example : (1 / √7 : ℝ) ^ 2 = 1 / 7 ∧ ∃ chol : Chol, IsLlt chol := by
  refine ⟨?_, exists_llt⟩
  rw [div_pow, Real.sq_sqrt (by norm_num), one_pow]

end Mot.Props
