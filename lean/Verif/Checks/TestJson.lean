import Verif.Checks.TestStates
import Verif.Model.Json
/-!
# The unit tests of the repository, run on the model: JSON input, construction, comparison

Tests of the model, not properties of the code; see `TestTracking.lean`.
-/

namespace Mot.Checks

open Real Json

/-- test/data/test_json_parsing_ctrv_detection.json, the keys in the order of the map -/
def ctrvDetectionJson : Json := .obj [
  (lit "covariance", .arr ((List.range 25).map fun k : ℕ => .num (k + 1))),
  (lit "motion_model", .str (lit "ctrv")),
  (lit "state", .obj [(lit "position_x_m", .num 2), (lit "position_y_m", .num 3),
    (lit "velocity_mps", .num 4), (lit "yaw_rad", .num 5), (lit "yaw_rate_rad_per_s", .num 6)]),
  (lit "timestamp_sec", .num 1),
  (lit "uuid", .str (lit "ABC"))]

/-- `JsonParsing.CtrvDetection`, test/test_json_parsing.cpp:25-45; `rf` need only keep the numbers of
the file -/
theorem JsonParsing_CtrvDetection (rf : ℝ → ℝ) (hrf : ∀ k < 25, rf ((k : ℕ) + 1) = k + 1) :
    ∃ o, ctrvFromJson rf ctrvDetectionJson = .ok o ∧ o.timestamp = 1 ∧ o.state.x = 2 ∧ o.state.y = 3 ∧
      o.state.v = 4 ∧ o.state.yaw.getAngle = 5 ∧ o.state.yawRate = 6 ∧
      (∀ i j, o.covariance i j = i.1 * 5 + j.1 + 1) ∧ o.uuid = uuid "ABC" := by
  have keys : [lit "covariance", lit "motion_model", lit "state", lit "timestamp_sec", lit "uuid"].Nodup ∧
      [lit "position_x_m", lit "position_y_m", lit "velocity_mps", lit "yaw_rad", lit "yaw_rate_rad_per_s"].Nodup := by
    decide +kernel
  simp only [List.nodup_cons, List.mem_cons, not_or, List.not_mem_nil, not_false_eq_true, and_true,
    List.nodup_nil] at keys
  have hcov : getFloats rf (.arr ((List.range 25).map fun k : ℕ => .num (k + 1))) =
      .ok ((List.range 25).map fun k : ℕ => (k + 1 : ℝ)) := by
    have : ∀ l : List ℕ, (∀ k ∈ l, k < 25) → Outcome.mapM' (getFloat rf) (l.map fun k : ℕ => .num (k + 1)) =
        .ok (l.map fun k : ℕ => (k + 1 : ℝ)) := by
      intro l hl
      induction l with
      | nil => rfl
      | cons k l ih =>
        have h1 := hrf k (hl k (by simp))
        simp only [List.map_cons, Outcome.mapM', getFloat, h1, ih fun m hm => hl m (by simp [hm])]
    exact this _ fun k hk => List.mem_range.1 hk
  refine ⟨⟨1, ⟨2, 3, 4, Angle.ofRad 5, 6⟩, fun i j => i.1 * 5 + j.1 + 1, uuid "ABC", .unknown⟩, ?_, rfl, rfl, rfl, rfl,
    getAngle_lit (by norm_num) (by norm_num), rfl, fun i j => rfl, rfl⟩
  simp only [ctrvFromJson, objFromJson, ctrvDetectionJson, at', find, keys, if_true, if_false, Outcome.bind, getDouble,
    ctrvStateFromJson, covFromJson, hcov, eigenMap, List.length_map, List.length_range, uuidFromJson, getString]
  rw [if_neg (by norm_num)]
  refine congrArg (fun M : CtrvCov => Outcome.ok (⟨1, ⟨2, 3, 4, Angle.ofRad 5, 6⟩, M, uuid "ABC", .unknown⟩ :
    DynObj CtrvState CtrvCov)) ?_
  funext i j
  show ((List.range 25).map fun k : ℕ => (k + 1 : ℝ)).getD (i.1 * 5 + j.1) 0 = _
  have h : i.1 * 5 + j.1 < 25 := by omega
  simp [List.getD, h]

/-- `TestDetection.CtrvDetectionDefaultConstruction` and `CtrvDetectionCustomConstruction`,
test/test_detection.cpp:29-64 -/
theorem Detection_Construction : (Angle.ofRad 0).getAngle = 0 ∧ (Angle.ofRad 4).getAngle = 4 :=
  ⟨getAngle_ofRad_zero, getAngle_lit (by norm_num) (by norm_num)⟩

theorem ctrvNear_refl (s : CtrvState) {tol : ℝ} (h : 0 ≤ tol) : CtrvNear s s tol := by
  refine ⟨?_, ?_, ?_, ?_, ?_⟩ <;> simpa using h

theorem ctraNear_refl (s : CtraState) {tol : ℝ} (h : 0 ≤ tol) : CtraNear s s tol := by
  refine ⟨?_, ?_, ?_, ?_, ?_, ?_⟩ <;> simpa using h

/-- `TestCtrvModel.Equality`, test/test_ctrv_model.cpp:88-104 -/
theorem CtrvModel_Equality :
    let s1 : CtrvState := ⟨1.23, 2.435, 5544, Angle.ofRad 34656.6543, 595633.555⟩
    let s2 : CtrvState := ⟨1.2, 20.45, 4, Angle.ofRad 34656.65435, 5953.55⟩
    let s3 : CtrvState := ⟨1, 2, 4, Angle.ofRad 3, 1.000000000000000000000000001⟩
    let s4 : CtrvState := ⟨1, 2, 4, Angle.ofRad 3, 1⟩
    CtrvNear s1 s1 1e-9 ∧ ¬ CtrvNear s1 s2 1e-9 ∧ CtrvNear s3 s4 1e-9 := by
  refine ⟨ctrvNear_refl _ (by norm_num), fun h => ?_, ?_⟩
  · have := h.1
    norm_num at this
  · refine ⟨?_, ?_, ?_, ?_, ?_⟩ <;> norm_num [abs_le]

/-- `TestCtraModel.Equality`, test/test_ctra_model.cpp:76-92 -/
theorem CtraModel_Equality :
    let s1 : CtraState := ⟨1.23, 2.435, 5544, Angle.ofRad 34656.6543, 595633.555, 100⟩
    let s2 : CtraState := ⟨1.23, 2.435, 5544, Angle.ofRad 34656.6543, 595633.555, 100⟩
    let s3 : CtraState := ⟨1, 2, 4, Angle.ofRad 3, 1.000000000000000000000000001, 1⟩
    let s4 : CtraState := ⟨1, 2, 4, Angle.ofRad 3, 1, 1⟩
    CtraNear s1 s1 1e-9 ∧ CtraNear s1 s2 1e-9 ∧ ¬ CtraNear s1 s3 1e-9 ∧ CtraNear s3 s4 1e-9 := by
  refine ⟨ctraNear_refl _ (by norm_num), ctraNear_refl _ (by norm_num), fun h => ?_, ?_⟩
  · have := h.1
    norm_num [abs_le] at this
  · refine ⟨?_, ?_, ?_, ?_, ?_, ?_⟩ <;> norm_num [abs_le]

end Mot.Checks
