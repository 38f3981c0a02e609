import Verif.Checks.TestFusing
/-!
# The unit tests of the repository, run on the model: unscented transform

Tests of the model, not properties of the code; see `TestTracking.lean`.
-/

namespace Mot.Checks

open Real Matrix Spec

/-- `TestFusing.UnmatchedAssociations`, test/test_fusing.cpp:206-232; the objects matter only by
their names, so any others do -/
theorem Fusing_UnmatchedAssociations (t₁ t₂ t₃ d₁ d₂ d₃ : MotObj)
    (h₁ : TrackOps.uuid d₁ = uuid "detection1") (h₂ : TrackOps.uuid d₂ = uuid "detection2")
    (h₃ : TrackOps.uuid d₃ = uuid "detection3") :
    fuseAssociations (pushBack (pushBack (pushBack .empty (uuid "track1") (uuid "detection4"))
        (uuid "track2") (uuid "detection5")) (uuid "track3") (uuid "detection6"))
      [t₁, t₂, t₃] [d₁, d₂, d₃] ciVisitor = .ok [] := by
  have he : (pushBack (pushBack (pushBack .empty (uuid "track1") (uuid "detection4"))
        (uuid "track2") (uuid "detection5")) (uuid "track3") (uuid "detection6")).entries =
      [(uuid "track1", [uuid "detection4"]), (uuid "track2", [uuid "detection5"]),
       (uuid "track3", [uuid "detection6"])] := by decide +kernel
  have none : ∀ u ∈ [uuid "detection4", uuid "detection5", uuid "detection6"], ∀ t acc,
      fuseDetections ciVisitor [u] t [d₁, d₂, d₃] acc = .ok acc := by
    intro u hu t acc
    have n1 : ∀ v ∈ [uuid "detection4", uuid "detection5", uuid "detection6"],
        uuid "detection1" ≠ v ∧ uuid "detection2" ≠ v ∧ uuid "detection3" ≠ v := by decide +kernel
    obtain ⟨a, b, c⟩ := n1 u hu
    simp only [fuseDetections, h₁, h₂, h₃, List.mem_singleton, if_neg a, if_neg b, if_neg c]
  have tracks : ∀ u ∈ [uuid "detection4", uuid "detection5", uuid "detection6"], ∀ n ts acc,
      fuseTracks ciVisitor n [u] [d₁, d₂, d₃] ts acc = .ok acc := by
    intro u hu n ts
    induction ts with
    | nil => intro acc; rfl
    | cons t ts ih =>
      intro acc
      simp only [fuseTracks, none u hu, ih, ite_self]
  simp only [fuseAssociations, he, fuseLoop, tracks _ (by simp : uuid "detection4" ∈ _),
    tracks _ (by simp : uuid "detection5" ∈ _), tracks _ (by simp : uuid "detection6" ∈ _)]

/-- `TestUnscentedTransform.GenerateWeights`, test/test_unscented_transform.cpp:90-114; the test
allows `10⁻⁵` -/
theorem UnscentedTransform_GenerateWeights :
    ∃ wm wc, generateWeights 5 1 2 (generateLambda 5 1 1) = some (wm, wc) ∧
      List.Forall₂ (fun a b : ℝ => |a - b| ≤ 1e-5) wm (0.16666667 :: List.replicate 10 0.08333333) ∧
      List.Forall₂ (fun a b : ℝ => |a - b| ≤ 1e-5) wc (2.16666667 :: List.replicate 10 0.08333333) := by
  have e : generateLambda 5 1 1 = 1 := by norm_num [generateLambda]
  rw [e]
  unfold generateWeights
  rw [if_neg (by norm_num)]
  refine ⟨_, _, rfl, ?_, ?_⟩
  · refine .cons ?_ ?_
    · rw [abs_le]; norm_num
    · simp only [List.replicate]
      repeat' first | exact List.Forall₂.nil | refine List.Forall₂.cons ?_ ?_
      all_goals rw [abs_le]; norm_num
  · refine .cons ?_ ?_
    · rw [abs_le]; norm_num
    · simp only [List.replicate]
      repeat' first | exact List.Forall₂.nil | refine List.Forall₂.cons ?_ ?_
      all_goals rw [abs_le]; norm_num

/-- the expected points, test/test_unscented_transform.cpp:51-70 -/
def expectedSigma : Fin 5 → (Fin 5 → ℚ) × (Fin 5 → ℚ) := ![
  (![5.90472378, 1.33143932, 2.31696311, 0.41932039, 0.27809126],
   ![5.58347622, 1.42856068, 2.09283689, 0.58367961, 0.42750874]),
  (![5.7441, 1.58938448, 2.26241076, 0.68589429, 0.50740598],
   ![5.7441, 1.17061552, 2.14738924, 0.31710571, 0.19819402]),
  (![5.7441, 1.38, 2.33348605, 0.52331144, 0.38608966],
   ![5.7441, 1.38, 2.07631395, 0.47968856, 0.31951034]),
  (![5.7441, 1.38, 2.2049, 0.63405006, 0.53858573],
   ![5.7441, 1.38, 2.2049, 0.36894994, 0.16701427]),
  (![5.7441, 1.38, 2.2049, 0.5015, 0.44602584],
   ![5.7441, 1.38, 2.2049, 0.5015, 0.25957416])]

/-- a state from its variables -/
noncomputable def stateOf (e : Fin 5 → ℚ) : CtrvState := ⟨e 0, e 1, e 2, Angle.ofRad (e 3), e 4⟩

/-- the enclosures of the points lie near the expected points -/
def sigmaOk (I : CtrvIvl) (e : Fin 5 → ℚ) : Bool :=
  head I.yaw && decide (0 ≤ e 3 ∧ e 3 ≤ 3) &&
    decide (∀ i, (I.toVec i).sub? (Ivl.near (e i) (1 / 10 ^ 5)) = true)

theorem sigma_near {I : CtrvIvl} {s : CtrvState} (h : I.Has s) {e : Fin 5 → ℚ} (hk : sigmaOk I e = true) :
    CtrvNear s (stateOf e) 1e-5 := by
  simp only [sigmaOk, Bool.and_eq_true, decide_eq_true_eq] at hk
  obtain ⟨⟨_, h3⟩, hs⟩ := hk
  have hn : ∀ i, |s.toVec i - e i| ≤ 1e-5 := fun i => by
    have := Ivl.has_near.1 ((h.toVec i).mono (hs i))
    refine this.trans ?_
    norm_num
  have e3 : (Angle.ofRad (e 3 : ℝ)).getAngle = e 3 :=
    getAngle_lit (by exact_mod_cast h3.1) (by have : (e 3 : ℝ) ≤ 3 := by exact_mod_cast h3.2
                                              linarith)
  refine ⟨hn 0, hn 1, hn 2, ?_, hn 4⟩
  show |s.yaw.getAngle - (Angle.ofRad (e 3 : ℝ)).getAngle| ≤ _
  rw [e3]
  exact hn 3

/-- all enclosures -/
theorem sigma_all (j : Fin 5) :
    sigmaOk (meanIvl.addVec (colIvl root6 cholIvl j)) (expectedSigma j).1 = true ∧
    sigmaOk (meanIvl.subVec (colIvl root6 cholIvl j)) (expectedSigma j).2 = true := by
  revert j; decide +kernel

/-- `TestUnscentedTransform.GenerateSigmaPoints`, test/test_unscented_transform.cpp:35-85.  The
test checks that every point is one of those expected; here each is near the expected one of
its position. -/
theorem UnscentedTransform_GenerateSigmaPoints {chol : Chol} (hc : IsLlt chol) :
    ∃ σ, sigmaPoints chol meanV covV (generateLambda 5 1 1) = some σ ∧
      List.Forall₂ (fun s e => CtrvNear s e 1e-5) σ
        ((List.finRange 5).flatMap fun j => [stateOf (expectedSigma j).1, stateOf (expectedSigma j).2]) := by
  have e : generateLambda 5 1 1 = 1 := by norm_num [generateLambda]
  rw [e]
  unfold sigmaPoints
  rw [if_neg (by norm_num)]
  refine ⟨_, rfl, ?_⟩
  · have e6 : ((5 : ℕ) : ℝ) + 1 = 6 := by norm_num
    rw [e6]
    unfold sigmaLoop
    generalize List.finRange 5 = l
    induction l with
    | nil => exact .nil
    | cons j l ih =>
      obtain ⟨h1, h2⟩ := sigma_all j
      have hd : ∀ i, (colIvl root6 cholIvl j i).Has ((√6 • (chol 5 covV).col j) i) := fun i =>
        (root6_has.mul (cholIvl_has (hc 5 covV covV_posDef) i j)).out
      have y1 : head (meanIvl.addVec (colIvl root6 cholIvl j)).yaw = true := by
        simp only [sigmaOk, Bool.and_eq_true] at h1; exact h1.1.1
      have y2 : head (meanIvl.subVec (colIvl root6 cholIvl j)).yaw = true := by
        simp only [sigmaOk, Bool.and_eq_true] at h2; exact h2.1.1
      rw [List.flatMap_cons, List.flatMap_cons]
      exact .cons (sigma_near (meanIvl_has.addVec hd y1) h1)
        (.cons (sigma_near (meanIvl_has.subVec hd y2) h2) ih)

/-! ## `ComputeUnscentedTransformPureEigen` -/

/-- the points, test/test_unscented_transform.cpp:121-127 -/
def utRows : List (Fin 5 → ℚ) :=
  ![5.7441, 1.38, 2.2049, 0.5015, 0.3528] ::
    (List.finRange 5).flatMap fun j => [(expectedSigma j).1, (expectedSigma j).2]

def utWm : List ℚ := 0.16666667 :: List.replicate 10 0.08333333
def utWc : List ℚ := 2.16666667 :: List.replicate 10 0.08333333

def utMean : Fin 5 → ℚ := ![5.7441, 1.38, 2.2049, 0.5015, 0.3528]
def utCov : Fin 5 → Fin 5 → ℚ :=
  !![0.0043, -0.0013, 0.003, -0.0022, -0.002;
     -0.0013, 0.0077, 0.0011, 0.0071, 0.006;
     0.003, 0.0011, 0.0054, 0.0007, 0.0008;
     -0.0022, 0.0071, 0.0007, 0.0098, 0.01;
     -0.002, 0.006, 0.0008, 0.01, 0.0123]

/-- enclosures of the points: the points themselves -/
def utIvl : List (Fin 5 → Ivl) := utRows.map fun r i => Ivl.pt (r i)

/-- enclosure of the mean -/
def utX (i : Fin 5) : Ivl := wsum utWm (utIvl.map (· i))

theorem utX_ok (i : Fin 5) : (utX i).sub? (Ivl.near (utMean i) (1 / 10 ^ 5)) = true := by
  revert i; decide +kernel

theorem utCov_ok (i j : Fin 5) :
    (wsum utWc (utIvl.map fun I => ((I i).sub (utX i)).mul ((I j).sub (utX j)))).sub?
      (Ivl.near (utCov i j) (1 / 10 ^ 5)) = true := by
  revert i j; decide +kernel

/-- `TestUnscentedTransform.ComputeUnscentedTransformPureEigen`,
test/test_unscented_transform.cpp:117-155 -/
theorem UnscentedTransform_ComputeUnscentedTransformPureEigen :
    ∃ x P, computeUt (utRows.map toRealV) (utWm.map (↑)) (utWc.map (↑)) = .ok (x, P) ∧
      (∀ i, |x i - utMean i| ≤ 1e-5) ∧ ∀ i j, |P i j - utCov i j| ≤ 1e-5 := by
  have hrows : RowsHave utIvl (utRows.map toRealV) := by
    unfold utIvl
    generalize utRows = l
    induction l with
    | nil => exact .nil
    | cons r l ih => exact .cons (fun i => Ivl.has_pt _) ih
  have hx : ∀ i, (utX i).Has _ := fun i => mean_has hrows utWm i
  unfold computeUt
  rw [if_pos ⟨by simp [utWm, utRows], by simp [utWc, utRows]⟩]
  refine ⟨_, _, rfl, fun i => ?_, fun i j => ?_⟩
  · exact (Ivl.has_near.1 ((hx i).mono (utX_ok i))).trans (by norm_num)
  · exact (Ivl.has_near.1 ((cov_has hrows hx utWc i j).mono (utCov_ok i j))).trans (by norm_num)

end Mot.Checks
