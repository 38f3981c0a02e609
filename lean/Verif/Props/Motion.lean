import Verif.Proofs.Motion
import Mathlib.Analysis.SpecialFunctions.Trigonometric.Bounds
import Mathlib.Tactic.LinearCombination
/-!
# Properties of the motion models (C43 – C50, C54), in exact real arithmetic
-/

namespace Mot.Props

open Mot Real

/-- a turning and braking object, for the examples -/
noncomputable def ctrvEx : CtrvState := ⟨1, 2, 3, Angle.ofRad 5, 1 / 4⟩
noncomputable def ctraEx : CtraState := ⟨1, 2, 3, Angle.ofRad 5, 1 / 4, -2⟩

theorem quarter_admissible : Admissible (1 / 4) := by
  right
  rw [abs_of_pos (by norm_num)]
  apply one_div_le_one_div_of_le (by norm_num)
  calc (4 : ℝ) = 2 ^ 2 := by norm_num
    _ ≤ 2 ^ 1022 := pow_le_pow_right₀ (by norm_num) (by norm_num)

example : ctrvEx.Valid ∧ Admissible ctrvEx.yawRate ∧ ¬ unitsEq ctrvEx.yawRate 0 := by
  refine ⟨Angle.valid_ofRad _, quarter_admissible, fun h => ?_⟩
  have := admissible_iff.1 quarter_admissible h
  norm_num at this

example : ctraEx.Valid ∧ Admissible ctraEx.yawRate := ⟨Angle.valid_ofRad _, quarter_admissible⟩

/-! ## C43 -/

/-- C43 (CTRV) -/
theorem C43_ctrv_zero_step (s : CtrvState) (hs : s.Valid) : s.next 0 = s :=
  CtrvState.next_zero s hs

/-- C43 (CTRA) -/
theorem C43_ctra_zero_step (s : CtraState) (hs : s.Valid) : s.next 0 = s :=
  CtraState.next_zero s hs

/-! ## C44 -/

/-- C44: predicting twice is predicting once by the sum. -/
theorem C44_ctrv_flow (s : CtrvState) (hω : Admissible s.yawRate) (t u : ℝ) :
    (s.next t).next u = s.next (t + u) := by
  have hd := s.next_sameDir t
  have hy : ((s.next t).next u).yaw = (s.next (t + u)).yaw := by
    rw [CtrvState.next_yaw, CtrvState.next_yaw (s := s) (t := t + u), CtrvState.next_yawRate]
    refine Angle.ofRad_eq_iff.2 ?_
    refine (hd.add (Angle.sameDir_getAngle _)).trans ?_
    rw [add_assoc, ← mul_add]
    exact (SameDir.refl _).add (Angle.sameDir_getAngle _).symm
  by_cases h : unitsEq s.yawRate 0
  · have h0 := admissible_iff.1 hω h
    obtain ⟨h1, h2⟩ := CtrvState.next_straight (s := s.next t) h u
    obtain ⟨h3, h4⟩ := CtrvState.next_straight h t
    obtain ⟨h5, h6⟩ := CtrvState.next_straight h (t + u)
    rw [h0, zero_mul, add_zero] at hd
    refine CtrvState.ext' ?_ ?_ rfl hy rfl
    · rw [h1, h3, h5, hd.cos_eq, CtrvState.next_v]; ring
    · rw [h2, h4, h6, hd.sin_eq, CtrvState.next_v]; ring
  · obtain ⟨h1, h2⟩ := CtrvState.next_turn (s := s.next t) h u
    obtain ⟨h3, h4⟩ := CtrvState.next_turn h t
    obtain ⟨h5, h6⟩ := CtrvState.next_turn h (t + u)
    have hd' := hd.add (SameDir.refl (s.yawRate * u))
    rw [add_assoc, ← mul_add] at hd'
    refine CtrvState.ext' ?_ ?_ rfl hy rfl
    · rw [h1, h3, h5, CtrvState.next_yawRate, CtrvState.next_v, hd.sin_eq, hd'.sin_eq]; ring
    · rw [h2, h4, h6, CtrvState.next_yawRate, CtrvState.next_v, hd.cos_eq, hd'.cos_eq]; ring

/-- C44: predicting forward and back returns to the start; speed and yaw rate are
constant. -/
theorem C44_ctrv_reversible (s : CtrvState) (hs : s.Valid) (hω : Admissible s.yawRate) (t : ℝ) :
    (s.next t).next (-t) = s ∧ (s.next t).v = s.v ∧ (s.next t).yawRate = s.yawRate := by
  refine ⟨?_, rfl, rfl⟩
  rw [C44_ctrv_flow s hω, add_neg_cancel, C43_ctrv_zero_step s hs]

/-- C44: the restriction on the yaw rate is needed; for `0 < |ω| < DBL_MIN` the code goes
straight while turning the heading, and two half-predictions differ from one. -/
theorem C44_tiny_rate_counterexample :
    ∃ s : CtrvState, s.Valid ∧ s.yawRate ≠ 0 ∧ ∃ t u, (s.next t).next u ≠ s.next (t + u) := by
  have hd := dblMin_pos
  have hp := Real.pi_pos
  refine ⟨⟨0, 0, 1, Angle.ofRad 0, dblMin / 2⟩, Angle.valid_ofRad _, by
    simp only; positivity, π / dblMin, 1, ?_⟩
  set s : CtrvState := ⟨0, 0, 1, Angle.ofRad 0, dblMin / 2⟩ with hsdef
  have hω : unitsEq s.yawRate 0 := by
    rw [unitsEq_zero_iff, abs_of_pos (show 0 < dblMin / 2 by positivity)]
    show dblMin / 2 < dblMin
    linarith
  have h0 : s.yaw.getAngle = 0 := Angle.getAngle_ofRad_of_range ⟨le_rfl, by linarith⟩
  have h1 := (CtrvState.next_straight (s := s.next (π / dblMin)) hω 1).1
  have h2 := (CtrvState.next_straight hω (π / dblMin)).1
  have h3 := (CtrvState.next_straight hω (π / dblMin + 1)).1
  have hdir := s.next_sameDir (π / dblMin)
  have hval : s.yaw.getAngle + s.yawRate * (π / dblMin) = π / 2 := by
    rw [h0]
    show 0 + dblMin / 2 * (π / dblMin) = π / 2
    field_simp
    ring
  rw [hval] at hdir
  intro h
  have hx : ((s.next (π / dblMin)).next 1).x = (s.next (π / dblMin + 1)).x := by rw [h]
  rw [h1, h2, h3, hdir.cos_eq, h0, Real.cos_pi_div_two, Real.cos_zero, CtrvState.next_v] at hx
  simp only [hsdef] at hx
  linarith

/-! ## C45 -/

/-- C45: the predicted positions are *the* solution of the equation of motion with
constant speed and turn rate. -/
theorem C45_ctrv_ode (s : CtrvState) (hω : Admissible s.yawRate) :
    TurnMotion s.x s.y s.v s.yaw.getAngle s.yawRate 0
      (fun t => (s.next t).x) (fun t => (s.next t).y) ∧
    (∀ X Y, TurnMotion s.x s.y s.v s.yaw.getAngle s.yawRate 0 X Y →
      ∀ t, (s.next t).x = X t ∧ (s.next t).y = Y t) ∧
    ∀ t, SameDir (s.next t).yaw.getAngle (s.yaw.getAngle + s.yawRate * t) := by
  have key : TurnMotion s.x s.y s.v s.yaw.getAngle s.yawRate 0
      (fun t => (s.next t).x) (fun t => (s.next t).y) := by
    by_cases h : unitsEq s.yawRate 0
    · have h0 := admissible_iff.1 hω h
      simp only [fun t => (CtrvState.next_straight h t).1, fun t => (CtrvState.next_straight h t).2]
      refine ⟨by simp, by simp, fun t => ?_, fun t => ?_⟩
      · rw [h0]
        have := ((hasDerivAt_id t).const_mul (s.v * cos s.yaw.getAngle)).const_add s.x
        simpa using this
      · rw [h0]
        have := ((hasDerivAt_id t).const_mul (s.v * sin s.yaw.getAngle)).const_add s.y
        simpa using this
    · have h0 := ne_zero_of_not_unitsEq h
      simp only [fun t => (CtrvState.next_turn h t).1, fun t => (CtrvState.next_turn h t).2]
      have hin : ∀ t, HasDerivAt (fun t => s.yaw.getAngle + s.yawRate * t) s.yawRate t := fun t => by
        simpa using ((hasDerivAt_id t).const_mul s.yawRate).const_add s.yaw.getAngle
      refine ⟨by simp, by simp, fun t => ?_, fun t => ?_⟩
      · have := (((hin t).sin.sub_const (sin s.yaw.getAngle)).const_mul
          (s.v / s.yawRate)).const_add s.x
        refine this.congr_deriv ?_
        field_simp
        ring
      · have := (((hin t).cos.sub_const (cos s.yaw.getAngle)).const_mul
          (s.v / s.yawRate)).const_sub s.y
        refine this.congr_deriv ?_
        field_simp
        ring
  refine ⟨key, fun X Y hXY t => ?_, s.next_sameDir⟩
  obtain ⟨h1, h2⟩ := key.unique hXY
  exact ⟨congrFun h1 t, congrFun h2 t⟩

/-! ## C46 -/

/-- C46: predicting twice is predicting once by the sum. -/
theorem C46_ctra_flow (s : CtraState) (hω : Admissible s.yawRate) (t u : ℝ) :
    (s.next t).next u = s.next (t + u) := by
  have hd := s.next_sameDir t
  have hy : ((s.next t).next u).yaw = (s.next (t + u)).yaw := by
    rw [CtraState.next_yaw, CtraState.next_yaw (s := s) (t := t + u), CtraState.next_yawRate]
    refine Angle.ofRad_eq_iff.2 ?_
    refine (hd.add (Angle.sameDir_getAngle _)).trans ?_
    rw [add_assoc, ← mul_add]
    exact (SameDir.refl _).add (Angle.sameDir_getAngle _).symm
  have hv : ((s.next t).next u).v = (s.next (t + u)).v := by
    rw [CtraState.next_v, CtraState.next_v, CtraState.next_v, CtraState.next_a]; ring
  by_cases h : unitsEq s.yawRate 0
  · have h0 := admissible_iff.1 hω h
    obtain ⟨h1, h2⟩ := CtraState.next_straight (s := s.next t) h u
    obtain ⟨h3, h4⟩ := CtraState.next_straight h t
    obtain ⟨h5, h6⟩ := CtraState.next_straight h (t + u)
    rw [h0, zero_mul, add_zero] at hd
    refine CtraState.ext' ?_ ?_ hv hy rfl rfl
    · rw [h1, h3, h5, hd.cos_eq, CtraState.next_v, CtraState.next_a]; ring
    · rw [h2, h4, h6, hd.sin_eq, CtraState.next_v, CtraState.next_a]; ring
  · obtain ⟨h1, h2⟩ := CtraState.next_turn (s := s.next t) h u
    obtain ⟨h3, h4⟩ := CtraState.next_turn h t
    obtain ⟨h5, h6⟩ := CtraState.next_turn h (t + u)
    have hd' := hd.add (SameDir.refl (s.yawRate * u))
    rw [add_assoc, ← mul_add] at hd'
    refine CtraState.ext' ?_ ?_ hv hy rfl rfl
    · rw [h1, h3, h5, CtraState.next_yawRate, CtraState.next_v, CtraState.next_a, hd.sin_eq,
        hd'.sin_eq, hd.cos_eq, hd'.cos_eq]; ring
    · rw [h2, h4, h6, CtraState.next_yawRate, CtraState.next_v, CtraState.next_a, hd.sin_eq,
        hd'.sin_eq, hd.cos_eq, hd'.cos_eq]; ring

/-- C46: forward and back is the identity; acceleration and yaw rate are constant, the
speed changes linearly. -/
theorem C46_ctra_reversible (s : CtraState) (hs : s.Valid) (hω : Admissible s.yawRate) (t : ℝ) :
    (s.next t).next (-t) = s ∧ (s.next t).v = s.v + s.a * t ∧
    (s.next t).yawRate = s.yawRate ∧ (s.next t).a = s.a := by
  refine ⟨?_, rfl, rfl, rfl⟩
  rw [C46_ctra_flow s hω, add_neg_cancel, C43_ctra_zero_step s hs]

/-! ## C47 -/

/-- C47: the predicted positions are *the* solution of the equation of motion with
constant acceleration and turn rate. -/
theorem C47_ctra_ode (s : CtraState) (hω : Admissible s.yawRate) :
    TurnMotion s.x s.y s.v s.yaw.getAngle s.yawRate s.a
      (fun t => (s.next t).x) (fun t => (s.next t).y) ∧
    (∀ X Y, TurnMotion s.x s.y s.v s.yaw.getAngle s.yawRate s.a X Y →
      ∀ t, (s.next t).x = X t ∧ (s.next t).y = Y t) ∧
    ∀ t, SameDir (s.next t).yaw.getAngle (s.yaw.getAngle + s.yawRate * t) := by
  have key : TurnMotion s.x s.y s.v s.yaw.getAngle s.yawRate s.a
      (fun t => (s.next t).x) (fun t => (s.next t).y) := by
    by_cases h : unitsEq s.yawRate 0
    · have h0 := admissible_iff.1 hω h
      simp only [fun t => (CtraState.next_straight h t).1, fun t => (CtraState.next_straight h t).2]
      have hin : ∀ t, HasDerivAt (fun t => s.v * t + s.a * t * t / 2) (s.v + s.a * t) t := fun t => by
        have h1 := (hasDerivAt_id t).const_mul s.v
        have h2 := (((hasDerivAt_id t).pow 2).const_mul (s.a / 2))
        have h3 := h1.add h2
        refine (h3.congr_deriv ?_).congr_of_eventuallyEq ?_
        · simp; ring
        · refine Filter.Eventually.of_forall fun u => ?_
          simp; ring
      refine ⟨by simp, by simp, fun t => ?_, fun t => ?_⟩
      · rw [h0, zero_mul, add_zero]
        exact ((hin t).mul_const (cos s.yaw.getAngle)).const_add s.x
      · rw [h0, zero_mul, add_zero]
        exact ((hin t).mul_const (sin s.yaw.getAngle)).const_add s.y
    · have h0 := ne_zero_of_not_unitsEq h
      simp only [fun t => (CtraState.next_turn h t).1, fun t => (CtraState.next_turn h t).2]
      have hin : ∀ t, HasDerivAt (fun t => s.yaw.getAngle + s.yawRate * t) s.yawRate t := fun t => by
        simpa using ((hasDerivAt_id t).const_mul s.yawRate).const_add s.yaw.getAngle
      have hv : ∀ t, HasDerivAt (fun t => (s.v + s.a * t) * s.yawRate) (s.a * s.yawRate) t :=
        fun t => by
          simpa using (((hasDerivAt_id t).const_mul s.a).const_add s.v).mul_const s.yawRate
      have hv' : ∀ t, HasDerivAt (fun t => -(s.v + s.a * t) * s.yawRate) (-s.a * s.yawRate) t :=
        fun t => by
          simpa using (((hasDerivAt_id t).const_mul s.a).const_add s.v).neg.mul_const s.yawRate
      refine ⟨by simp, by simp, fun t => ?_, fun t => ?_⟩
      · have := (((((hv t).mul (hin t).sin).add ((hin t).cos.const_mul s.a)).sub_const
          (s.v * s.yawRate * sin s.yaw.getAngle)).sub_const (s.a * cos s.yaw.getAngle)).const_mul
          (1 / (s.yawRate * s.yawRate)) |>.const_add s.x
        refine this.congr_deriv ?_
        field_simp
        ring
      · have := (((((hv' t).mul (hin t).cos).add ((hin t).sin.const_mul s.a)).add_const
          (s.v * s.yawRate * cos s.yaw.getAngle)).sub_const (s.a * sin s.yaw.getAngle)).const_mul
          (1 / (s.yawRate * s.yawRate)) |>.const_add s.y
        refine this.congr_deriv ?_
        field_simp
        ring
  refine ⟨key, fun X Y hXY t => ?_, s.next_sameDir⟩
  obtain ⟨h1, h2⟩ := key.unique hXY
  exact ⟨congrFun h1 t, congrFun h2 t⟩

/-! ## C48 -/

/-- forget the acceleration -/
def toCtrv (s : CtraState) : CtrvState := ⟨s.x, s.y, s.v, s.yaw, s.yawRate⟩

/-- C48: without acceleration the two models agree (also in the branch for tiny rates). -/
theorem C48_ctra_ctrv (s : CtraState) (ha : s.a = 0) (t : ℝ) :
    toCtrv (s.next t) = (toCtrv s).next t := by
  by_cases h : unitsEq s.yawRate 0
  · obtain ⟨h1, h2⟩ := CtraState.next_straight h t
    obtain ⟨h3, h4⟩ := CtrvState.next_straight (s := toCtrv s) h t
    refine CtrvState.ext' ?_ ?_ ?_ rfl rfl
    · rw [h3]; simp only [toCtrv]; rw [h1, ha]; ring
    · rw [h4]; simp only [toCtrv]; rw [h2, ha]; ring
    · simp only [toCtrv]; rw [CtraState.next_v, CtrvState.next_v, ha]; ring
  · have h0 := ne_zero_of_not_unitsEq h
    obtain ⟨h1, h2⟩ := CtraState.next_turn h t
    obtain ⟨h3, h4⟩ := CtrvState.next_turn (s := toCtrv s) h t
    refine CtrvState.ext' ?_ ?_ ?_ rfl rfl
    · rw [h3]; simp only [toCtrv]; rw [h1, ha]; field_simp; ring
    · rw [h4]; simp only [toCtrv]; rw [h2, ha]; field_simp; ring
    · simp only [toCtrv]; rw [CtraState.next_v, CtrvState.next_v, ha]; ring

/-! ## C49 -/

/-- C49 (CTRV): zero noise changes nothing. -/
theorem C49_ctrv_zero_noise (s : CtrvState) (t : ℝ) :
    s.nextNoisy t ⟨0, 0⟩ = s.next t := by
  have hy : (s.nextNoisy t ⟨0, 0⟩).yaw = (s.next t).yaw := by
    show (s.next t).yaw.add (Angle.ofRad (1 / 2 * 0 * t ^ 2)) = _
    obtain ⟨x, hx⟩ := (s.next_valid t).exists
    rw [hx, Angle.add_ofRad]; congr 1; ring
  refine CtrvState.ext' ?_ ?_ ?_ hy ?_ <;> simp [CtrvState.nextNoisy]

/-- C49 (CTRA): zero noise changes nothing. -/
theorem C49_ctra_zero_noise (s : CtraState) (t : ℝ) :
    s.nextNoisy t ⟨0, 0⟩ = s.next t := by
  have hy : (s.nextNoisy t ⟨0, 0⟩).yaw = (s.next t).yaw := by
    show (s.next t).yaw.add (Angle.ofRad (1 / 2 * 0 * t ^ 2)) = _
    obtain ⟨x, hx⟩ := (s.next_valid t).exists
    rw [hx, Angle.add_ofRad]; congr 1; ring
  refine CtraState.ext' ?_ ?_ ?_ hy ?_ ?_ <;> simp [CtraState.nextNoisy]

/-- C49 (CTRV): effect of noise relative to the noiseless prediction, for any
representative `ψ` of the initial heading. -/
theorem C49_ctrv_noise (s : CtrvState) (t : ℝ) (n : ProcessNoise) (ψ : ℝ)
    (hψ : SameDir ψ s.yaw.getAngle) :
    (s.nextNoisy t n).x - (s.next t).x = n.lin * t ^ 2 / 2 * cos ψ ∧
    (s.nextNoisy t n).y - (s.next t).y = n.lin * t ^ 2 / 2 * sin ψ ∧
    (s.nextNoisy t n).v - s.v = n.lin * t ∧
    (s.nextNoisy t n).yawRate - s.yawRate = n.ang * t ∧
    SameDir (s.nextNoisy t n).yaw.getAngle (ψ + s.yawRate * t + n.ang * t ^ 2 / 2) := by
  rw [hψ.cos_eq, hψ.sin_eq]
  refine ⟨?_, ?_, ?_, ?_, ?_⟩
  · simp only [CtrvState.nextNoisy]; ring
  · simp only [CtrvState.nextNoisy]; ring
  · simp only [CtrvState.nextNoisy, CtrvState.next_v]; ring
  · simp only [CtrvState.nextNoisy, CtrvState.next_yawRate]; ring
  · refine (Angle.sameDir_getAngle_add_ofRad _ _).trans ?_
    have := ((s.next_sameDir t).trans (hψ.symm.add (SameDir.refl _))).add
      (SameDir.refl (1 / 2 * n.ang * t ^ 2))
    convert this using 1
    ring

/-- C49 (CTRA): effect of noise relative to the noiseless prediction. -/
theorem C49_ctra_noise (s : CtraState) (t : ℝ) (n : ProcessNoise) (ψ : ℝ)
    (hψ : SameDir ψ s.yaw.getAngle) :
    (s.nextNoisy t n).x - (s.next t).x = n.lin * t ^ 2 / 2 * cos ψ ∧
    (s.nextNoisy t n).y - (s.next t).y = n.lin * t ^ 2 / 2 * sin ψ ∧
    (s.nextNoisy t n).v - (s.v + s.a * t) = n.lin * t ∧
    (s.nextNoisy t n).yawRate - s.yawRate = n.ang * t ∧
    (s.nextNoisy t n).a - s.a = n.lin ∧
    SameDir (s.nextNoisy t n).yaw.getAngle (ψ + s.yawRate * t + n.ang * t ^ 2 / 2) := by
  rw [hψ.cos_eq, hψ.sin_eq]
  refine ⟨?_, ?_, ?_, ?_, ?_, ?_⟩
  · simp only [CtraState.nextNoisy]; ring
  · simp only [CtraState.nextNoisy]; ring
  · simp only [CtraState.nextNoisy, CtraState.next_v]; ring
  · simp only [CtraState.nextNoisy, CtraState.next_yawRate]; ring
  · simp only [CtraState.nextNoisy, CtraState.next_a]; ring
  · refine (Angle.sameDir_getAngle_add_ofRad _ _).trans ?_
    have := ((s.next_sameDir t).trans (hψ.symm.add (SameDir.refl _))).add
      (SameDir.refl (1 / 2 * n.ang * t ^ 2))
    convert this using 1
    ring

/-! ## C50 -/

/-- C50: the displacement is at most the distance travelled. -/
theorem C50_displacement (s : CtrvState) (t : ℝ) :
    sqrt (((s.next t).x - s.x) ^ 2 + ((s.next t).y - s.y) ^ 2) ≤ |s.v * t| ∧
    (s.yawRate = 0 →
      sqrt (((s.next t).x - s.x) ^ 2 + ((s.next t).y - s.y) ^ 2) = |s.v * t|) := by
  have hstr : unitsEq s.yawRate 0 →
      sqrt (((s.next t).x - s.x) ^ 2 + ((s.next t).y - s.y) ^ 2) = |s.v * t| := by
    intro h
    obtain ⟨h1, h2⟩ := CtrvState.next_straight h t
    rw [h1, h2, ← Real.sqrt_sq_eq_abs]
    congr 1
    have := Real.sin_sq_add_cos_sq s.yaw.getAngle
    linear_combination (s.v * t) ^ 2 * this
  refine ⟨?_, fun h0 => hstr (by rw [h0]; exact unitsEq_zero_zero)⟩
  by_cases h : unitsEq s.yawRate 0
  · exact (hstr h).le
  · have h0 := ne_zero_of_not_unitsEq h
    obtain ⟨h1, h2⟩ := CtrvState.next_turn h t
    apply Real.sqrt_le_iff.2 ⟨abs_nonneg _, ?_⟩
    rw [sq_abs, h1, h2]
    set ψ := s.yaw.getAngle
    set θ := s.yawRate * t with hθ
    have e : (s.x + s.v / s.yawRate * (sin (ψ + θ) - sin ψ) - s.x) ^ 2 +
        (s.y - s.v / s.yawRate * (cos (ψ + θ) - cos ψ) - s.y) ^ 2
        = (s.v / s.yawRate) ^ 2 * (2 - 2 * cos θ) := by
      rw [Real.sin_add, Real.cos_add]
      have h3 := Real.sin_sq_add_cos_sq ψ
      have h4 := Real.sin_sq_add_cos_sq θ
      linear_combination (s.v / s.yawRate) ^ 2 * ((sin θ ^ 2 + cos θ ^ 2 - 2 * cos θ + 1) * h3 + h4)
    rw [e]
    have h5 := Real.one_sub_sq_div_two_le_cos (x := θ)
    have h6 : (s.v * t) ^ 2 = (s.v / s.yawRate) ^ 2 * θ ^ 2 := by
      rw [hθ]; field_simp
    rw [h6]
    apply mul_le_mul_of_nonneg_left _ (sq_nonneg _)
    linarith

/-- C50 (CTRA): an object with speed `v` and acceleration `a` moves at most |v t| + |a| t²/2; without
turning it moves exactly |v t + a t²/2|. -/
theorem C50_displacement_ctra (s : CtraState) (t : ℝ) :
    sqrt (((s.next t).x - s.x) ^ 2 + ((s.next t).y - s.y) ^ 2) ≤ |s.v * t| + |s.a| * t ^ 2 / 2 ∧
    (s.yawRate = 0 → sqrt (((s.next t).x - s.x) ^ 2 + ((s.next t).y - s.y) ^ 2) =
      |s.v * t + s.a * t ^ 2 / 2|) := by
  have hstr : unitsEq s.yawRate 0 → sqrt (((s.next t).x - s.x) ^ 2 + ((s.next t).y - s.y) ^ 2) =
      |s.v * t + s.a * t ^ 2 / 2| := by
    intro h
    obtain ⟨h1, h2⟩ := CtraState.next_straight h t
    rw [h1, h2, ← Real.sqrt_sq_eq_abs]
    congr 1
    have := Real.sin_sq_add_cos_sq s.yaw.getAngle
    linear_combination (s.v * t + s.a * t ^ 2 / 2) ^ 2 * this
  refine ⟨?_, fun h0 => hstr (by rw [h0]; exact unitsEq_zero_zero)⟩
  by_cases h : unitsEq s.yawRate 0
  · rw [hstr h]
    refine (abs_add_le _ _).trans (le_of_eq ?_)
    rw [abs_div, abs_mul s.a, abs_of_nonneg (sq_nonneg t), abs_two]
  · obtain ⟨⟨x0, y0, hX, hY⟩, -, -⟩ :=
      C47_ctra_ode s (admissible_iff.2 fun h' => absurd h' h)
    set ex := (s.next t).x - s.x with hex
    set ey := (s.next t).y - s.y with hey
    set E := sqrt (ex ^ 2 + ey ^ 2) with hE
    have hE0 : 0 ≤ E := Real.sqrt_nonneg _
    have hEE : E * E = ex ^ 2 + ey ^ 2 := Real.mul_self_sqrt (by positivity)
    let G : ℝ → ℝ := fun r => (|s.v * t| * r + |s.a| * t ^ 2 * r ^ 2 / 2) * E -
      (ex * (s.next (r * t)).x + ey * (s.next (r * t)).y)
    have hd : ∀ r, HasDerivAt G ((|s.v * t| + |s.a| * t ^ 2 * r) * E -
        (ex * ((s.v + s.a * (r * t)) * cos (s.yaw.getAngle + s.yawRate * (r * t)) * t) +
          ey * ((s.v + s.a * (r * t)) * sin (s.yaw.getAngle + s.yawRate * (r * t)) * t))) r := by
      intro r
      have hr : HasDerivAt (fun r : ℝ => r * t) t r := by simpa using (hasDerivAt_id r).mul_const t
      have h1 := ((hX (r * t)).comp r hr).const_mul ex
      have h2 := ((hY (r * t)).comp r hr).const_mul ey
      have h3 : HasDerivAt (fun r : ℝ => (|s.v * t| * r + |s.a| * t ^ 2 * r ^ 2 / 2) * E)
          ((|s.v * t| + |s.a| * t ^ 2 * r) * E) r := by
        have h4 := (hasDerivAt_id r).const_mul |s.v * t|
        have h5 := (((hasDerivAt_id r).pow 2).const_mul (|s.a| * t ^ 2)).div_const 2
        refine ((h4.add h5).mul_const E).congr_deriv ?_
        simp only [id]
        push_cast
        ring
      exact h3.sub (h1.add h2)
    have hmono : MonotoneOn G (Set.Icc 0 1) := by
      refine monotoneOn_of_deriv_nonneg (convex_Icc 0 1)
        (fun r _ => (hd r).continuousAt.continuousWithinAt)
        (fun r _ => (hd r).differentiableAt.differentiableWithinAt) fun r hr => ?_
      rw [interior_Icc] at hr
      rw [(hd r).deriv, sub_nonneg]
      set θ := s.yaw.getAngle + s.yawRate * (r * t)
      have hcs : |ex * cos θ + ey * sin θ| ≤ E := by
        refine Real.abs_le_sqrt ?_
        have := Real.sin_sq_add_cos_sq θ
        nlinarith [sq_nonneg (ex * sin θ - ey * cos θ)]
      have hsp : |(s.v + s.a * (r * t)) * t| ≤ |s.v * t| + |s.a| * t ^ 2 * r := by
        have e : (s.v + s.a * (r * t)) * t = s.v * t + s.a * t ^ 2 * r := by ring
        rw [e]
        refine (abs_add_le _ _).trans (le_of_eq ?_)
        rw [abs_mul (s.a * t ^ 2), abs_mul s.a, abs_of_nonneg (sq_nonneg t), abs_of_pos hr.1]
      calc _ = (s.v + s.a * (r * t)) * t * (ex * cos θ + ey * sin θ) := by ring
        _ ≤ |(s.v + s.a * (r * t)) * t * (ex * cos θ + ey * sin θ)| := le_abs_self _
        _ = |(s.v + s.a * (r * t)) * t| * |ex * cos θ + ey * sin θ| := abs_mul _ _
        _ ≤ _ := mul_le_mul hsp hcs (abs_nonneg _) ((abs_nonneg _).trans hsp)
    have h01 := hmono (Set.left_mem_Icc.2 zero_le_one) (Set.right_mem_Icc.2 zero_le_one) zero_le_one
    simp only [G, zero_mul, one_mul, mul_zero] at h01
    have hx0 : (s.next 0).x = s.x := x0
    have hy0 : (s.next 0).y = s.y := y0
    rw [hx0, hy0] at h01
    have hfin : E * E ≤ (|s.v * t| + |s.a| * t ^ 2 / 2) * E := by
      rw [hEE]
      have : ex ^ 2 + ey ^ 2 = (ex * (s.next t).x + ey * (s.next t).y) - (ex * s.x + ey * s.y) := by
        rw [hex, hey]; ring
      rw [this, abs_mul]
      norm_num at h01
      linarith
    rcases hE0.eq_or_lt with h0 | h0
    · rw [← h0]; positivity
    · exact le_of_mul_le_mul_right hfin h0

/-- braking from 3 m/s at 2 m/s² in a turn, for one second: at most 4 m -/
example : sqrt (((ctraEx.next 1).x - ctraEx.x) ^ 2 + ((ctraEx.next 1).y - ctraEx.y) ^ 2) ≤ 4 := by
  have := (C50_displacement_ctra ctraEx 1).1
  norm_num [ctraEx] at this ⊢
  linarith

/-! ## C54 -/

/-- C54 (CTRV): subtraction undoes addition and vice versa. -/
theorem C54_ctrv_add_sub (s d : CtrvState) (hs : s.Valid) :
    (s.add d).sub d = s ∧ (s.sub d).add d = s := by
  have h1 : (s.yaw.add d.yaw).sub d.yaw = s.yaw := by
    conv_rhs => rw [← Angle.ofRad_getAngle hs]
    refine Angle.ofRad_eq_iff.2 (((Angle.sameDir_getAngle _).sub (SameDir.refl _)).trans ?_)
    rw [add_sub_cancel_right]; exact SameDir.refl _
  have h2 : (s.yaw.sub d.yaw).add d.yaw = s.yaw := by
    conv_rhs => rw [← Angle.ofRad_getAngle hs]
    refine Angle.ofRad_eq_iff.2 (((Angle.sameDir_getAngle _).add (SameDir.refl _)).trans ?_)
    rw [sub_add_cancel]; exact SameDir.refl _
  constructor
  · refine CtrvState.ext' ?_ ?_ ?_ h1 ?_ <;> simp [CtrvState.add, CtrvState.sub]
  · refine CtrvState.ext' ?_ ?_ ?_ h2 ?_ <;> simp [CtrvState.add, CtrvState.sub]

/-- C54 (CTRA): subtraction undoes addition and vice versa. -/
theorem C54_ctra_add_sub (s d : CtraState) (hs : s.Valid) :
    (s.add d).sub d = s ∧ (s.sub d).add d = s := by
  have h1 : (s.yaw.add d.yaw).sub d.yaw = s.yaw := by
    conv_rhs => rw [← Angle.ofRad_getAngle hs]
    refine Angle.ofRad_eq_iff.2 (((Angle.sameDir_getAngle _).sub (SameDir.refl _)).trans ?_)
    rw [add_sub_cancel_right]; exact SameDir.refl _
  have h2 : (s.yaw.sub d.yaw).add d.yaw = s.yaw := by
    conv_rhs => rw [← Angle.ofRad_getAngle hs]
    refine Angle.ofRad_eq_iff.2 (((Angle.sameDir_getAngle _).add (SameDir.refl _)).trans ?_)
    rw [sub_add_cancel]; exact SameDir.refl _
  constructor
  · refine CtraState.ext' ?_ ?_ ?_ h1 ?_ ?_ <;> simp [CtraState.add, CtraState.sub]
  · refine CtraState.ext' ?_ ?_ ?_ h2 ?_ ?_ <;> simp [CtraState.add, CtraState.sub]

/-- C54 (CTRV): conversion to a vector and back is the identity; from a vector and back
only normalises the yaw entry. -/
theorem C54_ctrv_vector (s : CtrvState) (hs : s.Valid) (w : Fin 5 → ℝ) :
    CtrvState.ofVec s.toVec = s ∧
    (∀ i, i ≠ 3 → (CtrvState.ofVec w).toVec i = w i) ∧
    SameDir ((CtrvState.ofVec w).toVec 3) (w 3) ∧
    0 ≤ (CtrvState.ofVec w).toVec 3 ∧ (CtrvState.ofVec w).toVec 3 < 2 * π := by
  refine ⟨CtrvState.ext' rfl rfl rfl (Angle.ofRad_getAngle hs) rfl, ?_, Angle.sameDir_getAngle _,
    (Angle.getAngle_range _).1, (Angle.getAngle_range _).2⟩
  intro i hi
  fin_cases i <;> first | rfl | exact absurd rfl hi

/-- C54 (CTRA): conversion to a vector and back. -/
theorem C54_ctra_vector (s : CtraState) (hs : s.Valid) (w : Fin 6 → ℝ) :
    CtraState.ofVec s.toVec = s ∧
    (∀ i, i ≠ 3 → (CtraState.ofVec w).toVec i = w i) ∧
    SameDir ((CtraState.ofVec w).toVec 3) (w 3) ∧
    0 ≤ (CtraState.ofVec w).toVec 3 ∧ (CtraState.ofVec w).toVec 3 < 2 * π := by
  refine ⟨CtraState.ext' rfl rfl rfl (Angle.ofRad_getAngle hs) rfl rfl, ?_, Angle.sameDir_getAngle _,
    (Angle.getAngle_range _).1, (Angle.getAngle_range _).2⟩
  intro i hi
  fin_cases i <;> first | rfl | exact absurd rfl hi

/-- C54: the order of the vector entries is x, y, speed, yaw, yaw rate (, acceleration). -/
theorem C54_vector_entries (s : CtrvState) (r : CtraState) :
    s.toVec 0 = s.x ∧ s.toVec 1 = s.y ∧ s.toVec 2 = s.v ∧ s.toVec 3 = s.yaw.getAngle ∧
    s.toVec 4 = s.yawRate ∧
    r.toVec 0 = r.x ∧ r.toVec 1 = r.y ∧ r.toVec 2 = r.v ∧ r.toVec 3 = r.yaw.getAngle ∧
    r.toVec 4 = r.yawRate ∧ r.toVec 5 = r.a :=
  ⟨rfl, rfl, rfl, rfl, rfl, rfl, rfl, rfl, rfl, rfl, rfl⟩

/-- C54: scaling a CTRV state multiplies every entry of its vector, the heading modulo 2π;
scaling by 1 is the identity and scaling by 2 doubles. -/
theorem C54_scale (s : CtrvState) (r : ℝ) (hs : s.Valid) :
    (∀ i, i ≠ 3 → (s.smul r).toVec i = r * s.toVec i) ∧
    SameDir ((s.smul r).toVec 3) (r * s.toVec 3) ∧
    s.smul 1 = s ∧ s.smul 2 = s.add s := by
  refine ⟨?_, Angle.sameDir_getAngle _, ?_, ?_⟩
  · intro i hi
    fin_cases i <;> first | exact mul_comm _ _ | exact absurd rfl hi
  · refine CtrvState.ext' (mul_one _) (mul_one _) (mul_one _) ?_ (mul_one _)
    show Angle.ofRad (1 * s.yaw.getAngle) = s.yaw
    rw [one_mul]
    exact Angle.ofRad_getAngle hs
  · refine CtrvState.ext' (mul_two _) (mul_two _) (mul_two _) ?_ (mul_two _)
    show Angle.ofRad (2 * s.yaw.getAngle) = Angle.ofRad (s.yaw.getAngle + s.yaw.getAngle)
    rw [two_mul]

/-- doubling a heading of 200° gives 40° -/
example : ∃ s : CtrvState, s.Valid ∧ s.toVec 3 = 10 / 9 * π ∧ (s.smul 2).toVec 3 = 2 / 9 * π := by
  have hp := Real.pi_pos
  have h1 : (Angle.ofRad (10 / 9 * π)).getAngle = 10 / 9 * π :=
    Angle.getAngle_ofRad_of_range ⟨by positivity, by linarith⟩
  refine ⟨⟨0, 0, 0, Angle.ofRad (10 / 9 * π), 0⟩, Angle.valid_ofRad _, h1, ?_⟩
  show (Angle.ofRad (2 * (Angle.ofRad (10 / 9 * π)).getAngle)).getAngle = 2 / 9 * π
  rw [h1, show 2 * (10 / 9 * π) = 2 / 9 * π + 2 * π by ring]
  have h2 : Angle.ofRad (2 / 9 * π + 2 * π) = Angle.ofRad (2 / 9 * π) := by
    simp [Angle.ofRad, Real.cos_add_two_pi, Real.sin_add_two_pi]
  rw [h2]
  exact Angle.getAngle_ofRad_of_range ⟨by positivity, by linarith⟩

end Mot.Props
