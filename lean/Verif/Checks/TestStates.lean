import Verif.Checks.Interval
import Verif.Checks.TestTracking
import Verif.Proofs.Motion
import Verif.Proofs.Fusing
import Verif.Model.Clustering
import Verif.Model.Ukf
import Mathlib.Analysis.Real.Pi.Bounds
/-!
# The unit tests of the repository, run on the model: states, distances, clusters, weights

Tests of the model, not properties of the code; see `TestTracking.lean`.  The model computes with
real numbers: a comparison of the test with a tolerance has the same tolerance here,
`EXPECT_FLOAT_EQ` has the tolerance `4 ulp` of its expected value, and `EXPECT_DOUBLE_EQ` and the
comparison of unit-typed quantities are equality.
-/

namespace Mot.Checks

open Real

theorem pi_lower : (3.14159265358979 : ℝ) < π := by linarith [Real.pi_gt_d20]
theorem pi_upper : π < (3.14159265358980 : ℝ) := by linarith [Real.pi_lt_d20]

theorem getAngle_lit {x : ℝ} (h0 : 0 ≤ x) (h1 : x ≤ 6) : (Angle.ofRad x).getAngle = x :=
  Angle.getAngle_ofRad_of_range ⟨h0, by linarith [pi_lower]⟩

theorem getAngle_ofRad_zero : (Angle.ofRad 0).getAngle = 0 := getAngle_lit le_rfl (by norm_num)

theorem getAngle_sub_turn {x : ℝ} (h0 : 2 * π ≤ x) (h1 : x < 4 * π) :
    (Angle.ofRad x).getAngle = x - 2 * π := by
  have : Angle.ofRad x = Angle.ofRad (x - 2 * π) := by
    unfold Angle.ofRad
    rw [Real.cos_sub_two_pi, Real.sin_sub_two_pi]
  rw [this]
  exact Angle.getAngle_ofRad_of_range ⟨by linarith, by linarith⟩

theorem not_unitsEq_one : ¬ unitsEq 1 0 := by
  rw [unitsEq_zero_iff]
  have : dblMin ≤ 1 := by
    unfold dblMin
    rw [div_le_one (by positivity)]
    exact one_le_pow₀ (by norm_num)
  simpa using this

/-! ## test/test_angle.cpp -/

/-- the constants of test/test_angle.cpp:39-42 -/
noncomputable def angleP : Angle := Angle.ofRad 3.141592654
noncomputable def angleP2 : Angle := Angle.ofRad 1.570796327
noncomputable def angleP4 : Angle := Angle.ofRad 0.785398163

theorem angleP_get : angleP.getAngle = 3.141592654 := getAngle_lit (by norm_num) (by norm_num)
theorem angleP2_get : angleP2.getAngle = 1.570796327 := getAngle_lit (by norm_num) (by norm_num)
theorem angleP4_get : angleP4.getAngle = 0.785398163 := getAngle_lit (by norm_num) (by norm_num)

/-- `TestAngle.AngleArithmeticOperations`, test/test_angle.cpp:36-59 -/
theorem Angle_AngleArithmeticOperations :
    |(angleP.divide 2).getAngle - π / 2| ≤ 1e-8 ∧ |(angleP4.scale 2).getAngle - π / 2| ≤ 1e-8 ∧
    |(angleP.add angleP2).getAngle - 3 * (π / 2)| ≤ 1e-8 ∧
    |(angleP.sub angleP4).getAngle - 3 / 4 * π| ≤ 1e-8 ∧
    |(angleP.scale 2.2).getAngle - 0.2 * π| ≤ 1e-8 := by
  have h1 := pi_lower
  have h2 := pi_upper
  refine ⟨?_, ?_, ?_, ?_, ?_⟩
  · have : (angleP.divide 2).getAngle = 3.141592654 / 2 := by
      unfold Angle.divide
      rw [angleP_get]
      exact getAngle_lit (by norm_num) (by norm_num)
    rw [this, abs_le]; constructor <;> linarith
  · have : (angleP4.scale 2).getAngle = 2 * 0.785398163 := by
      unfold Angle.scale
      rw [angleP4_get]
      exact getAngle_lit (by norm_num) (by norm_num)
    rw [this, abs_le]; constructor <;> linarith
  · have : (angleP.add angleP2).getAngle = 3.141592654 + 1.570796327 := by
      unfold Angle.add
      rw [angleP_get, angleP2_get]
      exact getAngle_lit (by norm_num) (by norm_num)
    rw [this, abs_le]; constructor <;> linarith
  · have : (angleP.sub angleP4).getAngle = 3.141592654 - 0.785398163 := by
      unfold Angle.sub
      rw [angleP_get, angleP4_get]
      exact getAngle_lit (by norm_num) (by norm_num)
    rw [this, abs_le]; constructor <;> linarith
  · have : (angleP.scale 2.2).getAngle = 2.2 * 3.141592654 - 2 * π := by
      unfold Angle.scale
      rw [angleP_get]
      exact getAngle_sub_turn (by linarith) (by linarith)
    rw [this, abs_le]; constructor <;> linarith

/-- `TestAngle.AngleBooleanOperations`, test/test_angle.cpp:61-79 -/
theorem Angle_AngleBooleanOperations :
    ¬ |angleP.getAngle - angleP2.getAngle| ≤ 1e-8 ∧
    |angleP2.getAngle - (angleP.sub angleP2).getAngle| ≤ 1e-8 := by
  have : (angleP.sub angleP2).getAngle = 3.141592654 - 1.570796327 := by
    unfold Angle.sub
    rw [angleP_get, angleP2_get]
    exact getAngle_lit (by norm_num) (by norm_num)
  rw [this, angleP_get, angleP2_get]
  constructor
  · norm_num
  · norm_num

/-! ## test/test_ctrv_model.cpp -/

/-- `CtrvStateNear`, test/multiple_object_tracking/test/gmock_matchers.hpp:118-128 -/
def CtrvNear (s e : CtrvState) (tol : ℝ) : Prop :=
  |s.x - e.x| ≤ tol ∧ |s.y - e.y| ≤ tol ∧ |s.v - e.v| ≤ tol ∧
    |s.yaw.getAngle - e.yaw.getAngle| ≤ tol ∧ |s.yawRate - e.yawRate| ≤ tol

/-- `CtraStateNear`, test/multiple_object_tracking/test/gmock_matchers.hpp:130-141 -/
def CtraNear (s e : CtraState) (tol : ℝ) : Prop :=
  |s.x - e.x| ≤ tol ∧ |s.y - e.y| ≤ tol ∧ |s.v - e.v| ≤ tol ∧
    |s.yaw.getAngle - e.yaw.getAngle| ≤ tol ∧ |s.yawRate - e.yawRate| ≤ tol ∧ |s.a - e.a| ≤ tol

theorem sin_half : |sin (1 / 2) - 0.479425538604203| ≤ 1e-14 := by
  have := ((Ivl.has_num (x := 1 / 2) (q := 1 / 2) (by norm_num)).sin (by norm_num [Ivl.mid, Ivl.pt])).mono
    (J := Ivl.near 0.479425538604203 1e-14) (by decide +kernel)
  have := Ivl.has_near.1 this
  norm_num at this ⊢
  exact this

theorem cos_half : |cos (1 / 2) - 0.877582561890373| ≤ 1e-14 := by
  have := ((Ivl.has_num (x := 1 / 2) (q := 1 / 2) (by norm_num)).cos (by norm_num [Ivl.mid, Ivl.pt])).mono
    (J := Ivl.near 0.877582561890373 1e-14) (by decide +kernel)
  have := Ivl.has_near.1 this
  norm_num at this ⊢
  exact this

theorem half_yaw : ((Angle.ofRad 0).add (Angle.ofRad (1 * 0.5))).getAngle = 1 / 2 := by
  unfold Angle.add
  rw [getAngle_ofRad_zero, getAngle_lit (x := 1 * 0.5) (by norm_num) (by norm_num)]
  rw [show Angle.setAngle (Angle.ofRad 0) (0 + 1 * 0.5) = Angle.ofRad (0 + 1 * 0.5) from rfl,
    getAngle_lit (by norm_num) (by norm_num)]
  norm_num

/-- `TestCtrvModel.NextStatePureRotation`, test/test_ctrv_model.cpp:35-44 -/
theorem CtrvModel_NextStatePureRotation :
    CtrvNear (CtrvState.next ⟨0, 0, 0, Angle.ofRad 0, 1⟩ 0.5) ⟨0, 0, 0, Angle.ofRad 0.5, 1⟩ 1e-9 := by
  have hy := half_yaw
  simp only [CtrvNear, CtrvState.next, if_neg not_unitsEq_one, hy,
    getAngle_lit (x := 0.5) (by norm_num) (by norm_num)]
  norm_num

/-- `TestCtrvModel.NextStatePureTranslation`, test/test_ctrv_model.cpp:49-58 -/
theorem CtrvModel_NextStatePureTranslation :
    CtrvNear (CtrvState.next ⟨0, 0, 1, Angle.ofRad 0, 0⟩ 0.5) ⟨0.5, 0, 1, Angle.ofRad 0, 0⟩ 1e-9 := by
  simp only [CtrvNear, CtrvState.next, if_pos unitsEq_zero_zero, Angle.add, getAngle_ofRad_zero,
    zero_mul, add_zero, show ((Angle.ofRad 0).setAngle 0).getAngle = 0 from getAngle_ofRad_zero,
    Real.cos_zero, Real.sin_zero]
  norm_num

/-- `TestCtrvModel.NextStateRotationAndTranslation`, test/test_ctrv_model.cpp:63-73 -/
theorem CtrvModel_NextStateRotationAndTranslation :
    CtrvNear (CtrvState.next ⟨0, 0, 1, Angle.ofRad 0, 1⟩ 0.5)
      ⟨0.479425539, 0.122417438, 1, Angle.ofRad 0.5, 1⟩ 1e-9 := by
  have hy := half_yaw
  have hs := abs_le.1 sin_half
  have hc := abs_le.1 cos_half
  simp only [CtrvNear, CtrvState.next, if_neg not_unitsEq_one, hy, getAngle_ofRad_zero,
    getAngle_lit (x := 0.5) (by norm_num) (by norm_num), Real.cos_zero, Real.sin_zero,
    show (0 : ℝ) + 1 * 0.5 = 1 / 2 by norm_num]
  norm_num at hs hc ⊢
  constructor <;> rw [abs_le] <;> constructor <;> linarith

/-- `TestCtrvModel.NextStateStochastic`, test/test_ctrv_model.cpp:75-86 -/
theorem CtrvModel_NextStateStochastic :
    CtrvNear (CtrvState.nextNoisy ⟨0, 0, 1, Angle.ofRad 0, 1⟩ 0.5 ⟨1, 1⟩)
      ⟨0.604425539, 0.122417438, 1.5, Angle.ofRad 0.625, 1.5⟩ 1e-9 := by
  have hy := half_yaw
  have hs := abs_le.1 sin_half
  have hc := abs_le.1 cos_half
  have hy2 : (((Angle.ofRad 0).add (Angle.ofRad (1 * 0.5))).add
      (Angle.ofRad (1 / 2 * 1 * 0.5 ^ 2))).getAngle = 0.625 := by
    rw [Angle.add, hy, getAngle_lit (x := 1 / 2 * 1 * 0.5 ^ 2) (by norm_num) (by norm_num)]
    rw [show ∀ a : Angle, a.setAngle (1 / 2 + 1 / 2 * 1 * 0.5 ^ 2) =
      Angle.ofRad (1 / 2 + 1 / 2 * 1 * 0.5 ^ 2) from fun _ => rfl,
      getAngle_lit (by norm_num) (by norm_num)]
    norm_num
  simp only [CtrvNear, CtrvState.nextNoisy, CtrvState.next, if_neg not_unitsEq_one, hy2,
    getAngle_ofRad_zero, getAngle_lit (x := 0.625) (by norm_num) (by norm_num), Real.cos_zero,
    Real.sin_zero, show (0 : ℝ) + 1 * 0.5 = 1 / 2 by norm_num]
  norm_num at hs hc ⊢
  constructor <;> rw [abs_le] <;> constructor <;> linarith

/-! ## test/test_ctra_model.cpp -/

/-- `TestCtraModel.NextStatePureRotation`, test/test_ctra_model.cpp:35-44 -/
theorem CtraModel_NextStatePureRotation :
    CtraNear (CtraState.next ⟨0, 0, 0, Angle.ofRad 0, 1, 0⟩ 0.5) ⟨0, 0, 0, Angle.ofRad 0.5, 1, 0⟩ 1e-9 := by
  have hy := half_yaw
  simp only [CtraNear, CtraState.next, if_neg not_unitsEq_one, hy,
    getAngle_lit (x := 0.5) (by norm_num) (by norm_num)]
  norm_num

/-- `TestCtraModel.NextStatePureTranslation`, test/test_ctra_model.cpp:49-59 -/
theorem CtraModel_NextStatePureTranslation :
    CtraNear (CtraState.next ⟨0, 0, 1, Angle.ofRad 0, 0, 1⟩ 0.5)
      ⟨0.625, 0, 1.5, Angle.ofRad 0, 0, 1⟩ 1e-9 := by
  simp only [CtraNear, CtraState.next, if_pos unitsEq_zero_zero, Angle.add, getAngle_ofRad_zero,
    zero_mul, add_zero, show ((Angle.ofRad 0).setAngle 0).getAngle = 0 from getAngle_ofRad_zero,
    Real.cos_zero, Real.sin_zero]
  norm_num

/-- `TestCtraModel.NextStateRotationAndTranslation`, test/test_ctra_model.cpp:64-74 -/
theorem CtraModel_NextStateRotationAndTranslation :
    CtraNear (CtraState.next ⟨0, 0, 1, Angle.ofRad 0, 1, 1⟩ 0.5)
      ⟨0.5967208697966773, 0.16305169576864387, 1.5, Angle.ofRad 0.5, 1, 1⟩ 1e-9 := by
  have hy := half_yaw
  have hs := abs_le.1 sin_half
  have hc := abs_le.1 cos_half
  simp only [CtraNear, CtraState.next, if_neg not_unitsEq_one, hy, getAngle_ofRad_zero,
    getAngle_lit (x := 0.5) (by norm_num) (by norm_num), Real.cos_zero, Real.sin_zero]
  norm_num at hs hc ⊢
  constructor <;> rw [abs_le] <;> constructor <;> linarith

end Mot.Checks
