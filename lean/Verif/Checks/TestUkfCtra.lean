import Verif.Checks.IntervalCtra
import Verif.Checks.TestUkf
import Verif.Props.Llt
/-!
# The unit tests of the repository, run on the model: prediction of CTRA objects

Tests of the model, not properties of the code; see `TestTracking.lean`.  The covariance of the two
tests has the negative variance -0.8701 and is not positive definite, so Eigen's contract says nothing
about its Cholesky factor.  The tests are run with the model of Eigen's procedure (`Model/Llt.lean`):
it gives up in the last column and leaves -0.8701 there, and the numbers expected by the tests are
those that result.  That the values agree confirms the model of the procedure; it also
shows that the expectations of these tests were recorded from a failed decomposition.
-/

namespace Mot.Checks

open Real Matrix Spec

/-- test/test_unscented_kalman_filter.cpp:77-78, test/test_temporal_alignment.cpp:152-205 -/
noncomputable def meanA : CtraState := ⟨5.7441, 1.38, 2.2049, Angle.ofRad 0.5015, 0.3528, 1⟩

/-- `meanA` in an enclosure -/
def meanIvlA : CtraIvl := ⟨.pt 5.7441, .pt 1.38, .pt 2.2049, .pt 0.5015, .pt 0.3528, .pt 1⟩

theorem meanIvlA_has : meanIvlA.Has meanA := by
  refine ⟨Ivl.has_num ?_, Ivl.has_num ?_, Ivl.has_num ?_, Ivl.has_num ?_, Ivl.has_num ?_, Ivl.has_num ?_⟩
  · simp only [meanA]; norm_num
  · simp only [meanA]; norm_num
  · simp only [meanA]; norm_num
  · simp only [meanA, getM]; norm_num
  · simp only [meanA]; norm_num
  · simp only [meanA]; norm_num

/-! ## What Eigen's procedure leaves -/

theorem covA_symm : covAᵀ = covA := by
  ext i j
  fin_cases i <;> fin_cases j <;> rfl

theorem covA_leading : leading covA 5 (by decide) = covV := by
  ext i j
  fin_cases i <;> fin_cases j <;> simp [leading, covA, covV, Fin.castLE]

theorem covA_not_posDef : ¬ covA.PosDef := by
  intro h
  have := h.diag_pos (i := 5)
  have e : covA 5 5 = -0.8701 := rfl
  rw [e] at this
  norm_num at this

/-- the decomposition gives up in the last column -/
theorem covA_failed : Llt.failed covA = some 5 := by
  rw [Props.C121_gives_up_iff covA_symm]
  exact ⟨covA_leading ▸ covV_posDef, covA_not_posDef⟩

/-- enclosures of what is used as the Cholesky factor -/
def factorIvl : Fin 6 → Fin 6 → Ivl := fun i j =>
  if h : i.1 < 5 ∧ j.1 < 5 then cholIvl ⟨i, h.1⟩ ⟨j, h.2⟩
  else if i.1 < 5 then .pt 0
  else ![Ivl.near (76249285166302336/10^16) (1/10^14), Ivl.near (32073004821793936/10^16) (1/10^13), Ivl.near (-145564306734216224/10^16) (1/10^11), Ivl.near (28272175044070324/10^16) (1/10^10), Ivl.near (4102595485642138/10^16) (1/10^9), Ivl.near (-8701/10000) 0] j

theorem factorIvl_has (i j : Fin 6) : (factorIvl i j).Has (eigenLlt 6 covA i j) := by
  obtain ⟨h1, h2, h3⟩ := Props.C121_left_over covA_symm covA_failed
  have hL : IsCholesky (leading (eigenLlt 6 covA) 5 (by decide)) covV := covA_leading ▸ h1
  have hlow : ∀ i j, ¬ j ≤ i → eigenLlt 6 covA i j = 0 := fun i j hij => if_neg hij
  have c' := cholIvl_has hL
  have pos' := hL.diag
  have p : ∀ j : Fin 5, 0 < eigenLlt 6 covA (Fin.castLE (by decide) j) (Fin.castLE (by decide) j) := pos'
  have e : ∀ j : Fin 6, j < 5 → ∑ l, eigenLlt 6 covA 5 l * eigenLlt 6 covA j l = covA 5 j := fun j hj => by
    rw [← h2 5 j hj le_rfl, Matrix.mul_apply]
    rfl
  have h55 : eigenLlt 6 covA 5 5 = covA 5 5 := (h3 5 5 le_rfl).trans (if_pos le_rfl)
  generalize eigenLlt 6 covA = L at *
  have c : ∀ i j : Fin 5, (factorIvl (Fin.castLE (by decide) i) (Fin.castLE (by decide) j)).Has
      (L (Fin.castLE (by decide) i) (Fin.castLE (by decide) j)) := fun i j => by
    have : factorIvl (Fin.castLE (by decide) i) (Fin.castLE (by decide) j) = cholIvl i j :=
      dif_pos ⟨i.2, j.2⟩
    rw [this]
    exact c' i j
  have z01 : L 0 1 = 0 := hlow _ _ (by decide)
  have z02 : L 0 2 = 0 := hlow _ _ (by decide)
  have z03 : L 0 3 = 0 := hlow _ _ (by decide)
  have z04 : L 0 4 = 0 := hlow _ _ (by decide)
  have z05 : L 0 5 = 0 := hlow _ _ (by decide)
  have z12 : L 1 2 = 0 := hlow _ _ (by decide)
  have z13 : L 1 3 = 0 := hlow _ _ (by decide)
  have z14 : L 1 4 = 0 := hlow _ _ (by decide)
  have z15 : L 1 5 = 0 := hlow _ _ (by decide)
  have z23 : L 2 3 = 0 := hlow _ _ (by decide)
  have z24 : L 2 4 = 0 := hlow _ _ (by decide)
  have z25 : L 2 5 = 0 := hlow _ _ (by decide)
  have z34 : L 3 4 = 0 := hlow _ _ (by decide)
  have z35 : L 3 5 = 0 := hlow _ _ (by decide)
  have z45 : L 4 5 = 0 := hlow _ _ (by decide)
  have r0 : (factorIvl 5 0).Has (L 5 0) := by
    have p0 : (0 : ℝ) < L 0 0 := p 0
    have h0 := e 0 (by decide)
    rw [show covA 5 0 = (1/2) by simp [covA]; norm_num, Fin.sum_univ_six, z01, z02, z03, z04, z05] at h0
    have h1 : L 5 0 = ((1/2)) / L 0 0 := by
      rw [eq_div_iff p0.ne']; linarith
    rw [h1]
    exact (Ivl.Has.div (Ivl.has_num (x := (1/2)) (q := (1/2)) (by norm_num)) (c 0 0 : (factorIvl 0 0).Has (L 0 0)) (by decide +kernel)).mono (by decide +kernel)
  have r1 : (factorIvl 5 1).Has (L 5 1) := by
    have p1 : (0 : ℝ) < L 1 1 := p 1
    have h0 := e 1 (by decide)
    rw [show covA 5 1 = (123/1000) by simp [covA]; norm_num, Fin.sum_univ_six, z12, z13, z14, z15] at h0
    have h1 : L 5 1 = ((123/1000) - L 5 0 * L 1 0) / L 1 1 := by
      rw [eq_div_iff p1.ne']; linarith
    rw [h1]
    exact (Ivl.Has.div ((Ivl.has_num (x := (123/1000)) (q := (123/1000)) (by norm_num)).sub (r0.mul (c 1 0 : (factorIvl 1 0).Has (L 1 0)))) (c 1 1 : (factorIvl 1 1).Has (L 1 1)) (by decide +kernel)).mono (by decide +kernel)
  have r2 : (factorIvl 5 2).Has (L 5 2) := by
    have p2 : (0 : ℝ) < L 2 2 := p 2
    have h0 := e 2 (by decide)
    rw [show covA 5 2 = (-17/50) by simp [covA]; norm_num, Fin.sum_univ_six, z23, z24, z25] at h0
    have h1 : L 5 2 = ((-17/50) - L 5 0 * L 2 0 - L 5 1 * L 2 1) / L 2 2 := by
      rw [eq_div_iff p2.ne']; linarith
    rw [h1]
    exact (Ivl.Has.div (((Ivl.has_num (x := (-17/50)) (q := (-17/50)) (by norm_num)).sub (r0.mul (c 2 0 : (factorIvl 2 0).Has (L 2 0)))).sub (r1.mul (c 2 1 : (factorIvl 2 1).Has (L 2 1)))) (c 2 2 : (factorIvl 2 2).Has (L 2 2)) (by decide +kernel)).mono (by decide +kernel)
  have r3 : (factorIvl 5 3).Has (L 5 3) := by
    have p3 : (0 : ℝ) < L 3 3 := p 3
    have h0 := e 3 (by decide)
    rw [show covA 5 3 = (9/1000) by simp [covA]; norm_num, Fin.sum_univ_six, z34, z35] at h0
    have h1 : L 5 3 = ((9/1000) - L 5 0 * L 3 0 - L 5 1 * L 3 1 - L 5 2 * L 3 2) / L 3 3 := by
      rw [eq_div_iff p3.ne']; linarith
    rw [h1]
    exact (Ivl.Has.div ((((Ivl.has_num (x := (9/1000)) (q := (9/1000)) (by norm_num)).sub (r0.mul (c 3 0 : (factorIvl 3 0).Has (L 3 0)))).sub (r1.mul (c 3 1 : (factorIvl 3 1).Has (L 3 1)))).sub (r2.mul (c 3 2 : (factorIvl 3 2).Has (L 3 2)))) (c 3 3 : (factorIvl 3 3).Has (L 3 3)) (by decide +kernel)).mono (by decide +kernel)
  have r4 : (factorIvl 5 4).Has (L 5 4) := by
    have p4 : (0 : ℝ) < L 4 4 := p 4
    have h0 := e 4 (by decide)
    rw [show covA 5 4 = (21/10000) by simp [covA]; norm_num, Fin.sum_univ_six, z45] at h0
    have h1 : L 5 4 = ((21/10000) - L 5 0 * L 4 0 - L 5 1 * L 4 1 - L 5 2 * L 4 2 - L 5 3 * L 4 3) / L 4 4 := by
      rw [eq_div_iff p4.ne']; linarith
    rw [h1]
    exact (Ivl.Has.div (((((Ivl.has_num (x := (21/10000)) (q := (21/10000)) (by norm_num)).sub (r0.mul (c 4 0 : (factorIvl 4 0).Has (L 4 0)))).sub (r1.mul (c 4 1 : (factorIvl 4 1).Has (L 4 1)))).sub (r2.mul (c 4 2 : (factorIvl 4 2).Has (L 4 2)))).sub (r3.mul (c 4 3 : (factorIvl 4 3).Has (L 4 3)))) (c 4 4 : (factorIvl 4 4).Has (L 4 4)) (by decide +kernel)).mono (by decide +kernel)
  have r5 : (factorIvl 5 5).Has (L 5 5) := by
    rw [h55]
    have e : covA 5 5 = ((-8701/10000 : ℚ) : ℝ) := by
      show (-0.8701 : ℝ) = _
      norm_num
    rw [e]
    exact (Ivl.has_pt _).mono (by decide +kernel)
  have zero : (Ivl.pt 0).Has 0 := Ivl.has_num (q := 0) (by norm_num)
  by_cases hi : i.1 < 5
  · by_cases hj : j.1 < 5
    · exact c ⟨i, hi⟩ ⟨j, hj⟩
    · have hz : L i j = 0 := hlow i j (by rw [Fin.le_def]; omega)
      have : factorIvl i j = .pt 0 := (dif_neg (by omega)).trans (if_pos hi)
      rw [hz, this]
      exact zero
  · obtain rfl : i = 5 := Fin.ext (show i.1 = 5 by omega)
    fin_cases j
    exacts [r0, r1, r2, r3, r4, r5]

/-! ## Prediction -/

/-- an interval of half width `2·10⁻⁷` -/
def m6 (k : ℤ) : Ivl := ⟨(k - 200000) / 10 ^ 12, (k + 200000) / 10 ^ 12⟩

/-- the prediction of the state itself -/
def nextIvlA : CtraIvl := ⟨m6 (7821633040885), m6 (3090445764842), m6 (3204900000000), m6 (854300000000), m6 (352800000000), m6 (1000000000000)⟩

/-- the predictions of the sigma points for `n + λ = 7` -/
def rowsA7 : Fin 6 → CtraIvl × CtraIvl :=
  ![(⟨m6 (16650268806741), m6 (8451649804408), m6 (23499606607366), m6 (684841217195), m6 (272105341521), m6 (21173664619648)⟩,
     ⟨m6 (919532577609), m6 (-4420866888124), m6 (-17089806607366), m6 (1023758782805), m6 (433494658479), m6 (-19173664619648)⟩),
    (⟨m6 (9381630288580), m6 (7520285818083), m6 (11752738175615), m6 (1220462141583), m6 (519793545994), m6 (9485719455704)⟩,
     ⟨m6 (4314089858921), m6 (431775115723), m6 (-5342938175615), m6 (488137858417), m6 (185806454006), m6 (-7485719455704)⟩),
    (⟨m6 (-5725649415153), m6 (-10277924214226), m6 (-35168906727536), m6 (913815984961), m6 (388756939301), m6 (-37512695538626)⟩,
     ⟨m6 (22603251342301), m6 (15131244667196), m6 (41578706727536), m6 (794784015039), m6 (316843060699), m6 (39512695538626)⟩),
    (⟨m6 (9282683374752), m6 (6682543739271), m6 (10685014418950), m6 (1198141951895), m6 (553471521528), m6 (8480114418950)⟩,
     ⟨m6 (4840541947876), m6 (870285118309), m6 (-4275214418950), m6 (510458048105), m6 (152128478472), m6 (-6480114418950)⟩),
    (⟨m6 (8095034714362), m6 (3581540848236), m6 (4290344738491), m6 (954995415253), m6 (453495415253), m6 (2085444738491)⟩,
     ⟨m6 (7490732856847), m6 (2644745300959), m6 (2119455261509), m6 (753604584747), m6 (252104584747), m6 (-85444738491)⟩),
    (⟨m6 (6972059391166), m6 (2319750490994), m6 (902831784243), m6 (854300000000), m6 (352800000000), m6 (-1302068215757)⟩,
     ⟨m6 (8671206690605), m6 (3861141038690), m6 (5506968215757), m6 (854300000000), m6 (352800000000), m6 (3302068215757)⟩)]

/-- the mean of the predictions for `n + λ = 7` -/
def meanA7 : Fin 6 → Ivl := ![Ivl.near (7795617751170/10^12) (1/10^6), Ivl.near (3069790169229/10^12) (1/10^6), Ivl.near (3204900000000/10^12) (1/10^6), Ivl.near (854300000000/10^12) (1/10^6), Ivl.near (352800000000/10^12) (1/10^6), Ivl.near (1000000000000/10^12) (1/10^6)]

/-- the predictions of the sigma points for `n + λ = 8` -/
def rowsA8 : Fin 6 → CtraIvl × CtraIvl :=
  ![(⟨m6 (17318634729454), m6 (8732218864589), m6 (24900853968532), m6 (673140941018), m6 (266533781437), m6 (22566554640688)⟩,
     ⟨m6 (525230380244), m6 (-5007374414034), m6 (-18491053968532), m6 (1035459058982), m6 (439066218563), m6 (-20566554640688)⟩),
    (⟨m6 (9398362676690), m6 (7866135587091), m6 (12342923385925), m6 (1245743794803), m6 (531323609975), m6 (10071615681008)⟩,
     ⟨m6 (4024347296422), m6 (333937833489), m6 (-5933123385925), m6 (462856205197), m6 (174276390025), m6 (-8071615681008)⟩),
    (⟨m6 (-6613052031277), m6 (-11247547968090), m6 (-37818424971635), m6 (917925264218), m6 (391239585012), m6 (-40171803356193)⟩,
     ⟨m6 (23666902470934), m6 (15911302691188), m6 (44228224971635), m6 (790674735782), m6 (314360414988), m6 (42171803356193)⟩),
    (⟨m6 (9313978304598), m6 (6963405661567), m6 (11201478677022), m6 (1221882508340), m6 (567326880240), m6 (8996578677022)⟩,
     ⟨m6 (4595469574385), m6 (782225928977), m6 (-4791678677022), m6 (486717491660), m6 (138273119760), m6 (-6996578677022)⟩),
    (⟨m6 (8111659682974), m6 (3616958272015), m6 (4365289235345), m6 (961947926942), m6 (460447926942), m6 (2160389235345)⟩,
     ⟨m6 (7465903005848), m6 (2615805004386), m6 (2044510764655), m6 (746652073058), m6 (245152073058), m6 (-160389235345)⟩),
    (⟨m6 (6913400606005), m6 (2266537860744), m6 (743885558758), m6 (854300000000), m6 (352800000000), m6 (-1461014441242)⟩,
     ⟨m6 (8729865475766), m6 (3914353668941), m6 (5665914441242), m6 (854300000000), m6 (352800000000), m6 (3461014441242)⟩)]

/-- the mean of the predictions for `n + λ = 8` -/
def meanA8 : Fin 6 → Ivl := ![Ivl.near (7796077145974/10^12) (1/10^6), Ivl.near (3069358878139/10^12) (1/10^6), Ivl.near (3204900000000/10^12) (1/10^6), Ivl.near (854300000000/10^12) (1/10^6), Ivl.near (352800000000/10^12) (1/10^6), Ivl.near (1000000000000/10^12) (1/10^6)]

/-- enclosure of `√8` -/
def root8 : Ivl := Ivl.near (2828427124746190098/10^18) (1/10^16)

theorem root8_has : root8.Has √8 := (Ivl.has_num (q := 8) (by norm_num)).sqrt (by decide +kernel)

theorem nextA_ok : (meanIvlA.nextOk && meanIvlA.next.sub? nextIvlA && head nextIvlA.yaw) = true := by
  decide +kernel

theorem rowsA7_ok (j : Fin 6) : pairOk6 meanIvlA root7 factorIvl j (rowsA7 j) = true := by
  revert j; decide +kernel

theorem rowsA8_ok (j : Fin 6) : pairOk6 meanIvlA root8 factorIvl j (rowsA8 j) = true := by
  revert j; decide +kernel

/-- all rows -/
def allRowsA (R : Fin 6 → CtraIvl × CtraIvl) : List (Fin 6 → Ivl) :=
  nextIvlA.toVec :: (List.finRange 6).flatMap fun j => [(R j).1.toVec, (R j).2.toVec]

theorem meanA7_ok (i : Fin 6) :
    (wsum (1 / 7 :: List.replicate 12 (1 / (2 * 7))) ((allRowsA rowsA7).map (· i))).sub? (meanA7 i) = true := by
  revert i; decide +kernel

theorem meanA8_ok (i : Fin 6) :
    (wsum (2 / 8 :: List.replicate 12 (1 / (2 * 8))) ((allRowsA rowsA8).map (· i))).sub? (meanA8 i) = true := by
  revert i; decide +kernel

/-- `CtraPrediction`, test/test_unscented_kalman_filter.cpp:86-92 -/
noncomputable def expectedA7 : CtraState := ⟨7.79562, 3.06979, 3.2049, Angle.ofRad 0.8543, 0.3528, 1⟩
def expectedCovA7 : Fin 6 → Fin 6 → ℚ :=
  ![![39.64316, 34.85464, 106.24644, -0.06485, -0.03496, 106.36900],
     ![34.85464, 32.50103, 96.06596, 0.07105, 0.03515, 96.17529],
     ![106.24644, 96.06596, 288.55994, 0.01260, 0.00290, 288.89456],
     ![-0.06485, 0.07105, 0.01260, 0.04210, 0.02230, 0.01110],
     ![-0.03496, 0.03515, 0.00290, 0.02230, 0.01230, 0.00210],
     ![106.36899, 96.17529, 288.89453, 0.01110, 0.00210, 289.23456]]

/-- `CtraDetection`, test/test_temporal_alignment.cpp:152-205 -/
noncomputable def expectedA8 : CtraState := ⟨7.79608, 3.06936, 3.2049, Angle.ofRad 0.8543, 0.3528, 1⟩
def expectedCovA8 : Fin 6 → Fin 6 → ℚ :=
  ![![39.64152, 34.73882, 106.16206, -0.06633, -0.03572, 106.28492],
     ![34.73882, 32.49688, 95.98216, 0.06945, 0.03433, 96.09180],
     ![106.16206, 95.98216, 288.55997, 0.01260, 0.00290, 288.89456],
     ![-0.06633, 0.06945, 0.01260, 0.04210, 0.02230, 0.01110],
     ![-0.03572, 0.03433, 0.00290, 0.02230, 0.01230, 0.00210],
     ![106.28492, 96.09181, 288.89453, 0.01110, 0.00210, 289.23456]]

/-- enclosure of an entry of the covariance -/
def covIvlA (R : Fin 6 → CtraIvl × CtraIvl) (X : Fin 6 → Ivl) (ws : List ℚ) (i j : Fin 6) : Ivl :=
  wsum ws ((allRowsA R).map fun I => ((I i).sub (X i)).mul ((I j).sub (X j)))

theorem covA7_ok (i j : Fin 6) : (covIvlA rowsA7 meanA7 ((1 / 7 + 2) :: List.replicate 12 (1 / (2 * 7))) i j).sub?
    (Ivl.near (expectedCovA7 i j) (9 / 10 ^ 5)) = true := by
  revert i j; decide +kernel

theorem covA8_ok (i j : Fin 6) : (covIvlA rowsA8 meanA8 ((2 / 8 + 1) :: List.replicate 12 (1 / (2 * 8))) i j).sub?
    (Ivl.near (expectedCovA8 i j) (9 / 10 ^ 5)) = true := by
  revert i j; decide +kernel

/-- `EigenMatrixNear`, test/multiple_object_tracking/test/gmock_matchers.hpp -/
def CovNearA (P : CtraCov) (E : Fin 6 → Fin 6 → ℚ) (tol : ℚ) : Prop :=
  ∀ i j, |P i j - E i j| ≤ tol

/-- a state built from enclosed variables is near the expected one -/
theorem ofVec_nearA {X : Fin 6 → Ivl} {x : Fin 6 → ℝ} (hx : ∀ i, (X i).Has (x i))
    (e : Fin 6 → ℚ) (tol : ℚ) (hh : head (X 3) = true) (he : 0 ≤ e 3 ∧ e 3 ≤ 3)
    (h : ∀ i, (X i).sub? (Ivl.near (e i) tol) = true) :
    CtraNear (.ofVec x) ⟨e 0, e 1, e 2, Angle.ofRad (e 3), e 4, e 5⟩ tol := by
  have hn : ∀ i, |x i - e i| ≤ tol := fun i => Ivl.has_near.1 ((hx i).mono (h i))
  have e3 : (Angle.ofRad (e 3 : ℝ)).getAngle = e 3 :=
    getAngle_lit (by exact_mod_cast he.1) (by have : (e 3 : ℝ) ≤ 3 := by exact_mod_cast he.2
                                              linarith)
  refine ⟨hn 0, hn 1, hn 2, ?_, hn 4, hn 5⟩
  show |(Angle.ofRad (x 3)).getAngle - (Angle.ofRad (e 3 : ℝ)).getAngle| ≤ tol
  rw [getAngle_head (hx 3) hh, e3]
  exact hn 3

/-- the prediction, evaluated -/
theorem predict_nearA (β κ : ℝ) (N b0 c0 : ℚ) (hN : 1 ^ 2 * ((6 : ℕ) + κ) = N)
    (hN0 : 0 < N) (hb : κ / N = b0) (hc0 : κ / N + β = c0) {r : Ivl} (hr : r.Has √(N : ℝ))
    {R : Fin 6 → CtraIvl × CtraIvl} (hR : ∀ j, pairOk6 meanIvlA r factorIvl j (R j) = true)
    {X : Fin 6 → Ivl}
    (hX : ∀ i, (wsum (b0 :: List.replicate 12 (1 / (2 * N))) ((allRowsA R).map (· i))).sub? (X i) = true)
    {E : Fin 6 → Fin 6 → ℚ} {tol : ℚ}
    (hE : ∀ i j, (covIvlA R X (c0 :: List.replicate 12 (1 / (2 * N))) i j).sub? (Ivl.near (E i j) tol) = true) :
    ∃ x P, ukfPredict eigenLlt meanA covA 1 1 β κ = .ok (.ofVec x, P) ∧ (∀ i, (X i).Has (x i)) ∧
      CovNearA P E tol := by
  have hN0' : (0 : ℝ) < N := by exact_mod_cast hN0
  have hrows := predictedRows_has6 meanIvlA_has hr factorIvl_has nextA_ok hR
  have hlam : generateLambda 6 1 κ = κ := by unfold generateLambda; push_cast; ring
  have hw : ∀ c : ℚ, (c : ℝ) :: List.replicate (2 * 6) (1 / (2 * (N : ℝ))) =
      (c :: List.replicate 12 (1 / (2 * N))).map (fun q : ℚ => (q : ℝ)) := by
    intro c
    simp only [List.map_cons, List.map_replicate]
    push_cast
    rfl
  rw [ukfPredict_eq eigenLlt meanA covA 1 1 β κ (by rw [hN]; exact hN0')]
  simp only [hN, hlam, hb]
  rw [show (1 : ℝ) - 1 ^ 2 + β = β by ring, ← hb, hc0, hb, hw, hw]
  have hlen : (predictedRows meanA (eigenLlt 6 covA) √(N : ℝ) 1).length = 13 := by
    rw [← hrows.length_eq]; rfl
  unfold computeUt
  rw [if_pos ⟨by simp [hlen], by simp [hlen]⟩]
  have hx : ∀ i, (X i).Has _ := fun i => (mean_has hrows (b0 :: List.replicate 12 (1 / (2 * N))) i).mono (hX i)
  refine ⟨_, _, rfl, hx, fun i j => ?_⟩
  exact Ivl.has_near.1 ((cov_has hrows hx (c0 :: List.replicate 12 (1 / (2 * N))) i j).mono (hE i j))

/-- `TestUnscentedKalmanFilter.CtraPrediction`, test/test_unscented_kalman_filter.cpp:72-107 -/
theorem UnscentedKalmanFilter_CtraPrediction :
    ∃ s P, ukfPredict eigenLlt meanA covA 1 1 2 1 = .ok (s, P) ∧ CtraNear s expectedA7 1e-4 ∧
      CovNearA P expectedCovA7 1e-4 := by
  obtain ⟨x, P, h, hx, hP⟩ := predict_nearA 2 1 7 (1 / 7) (1 / 7 + 2) (by norm_num) (by norm_num)
    (by norm_num) (by norm_num) (by exact_mod_cast root7_has) rowsA7_ok
    (X := meanA7) meanA7_ok (E := expectedCovA7) (tol := 9 / 10 ^ 5) covA7_ok
  refine ⟨_, P, h, ?_, fun i j => (hP i j).trans (by norm_num)⟩
  have := ofVec_nearA hx ![7.79562, 3.06979, 3.2049, 0.8543, 0.3528, 1] 1e-4 (by decide +kernel)
    (by decide +kernel) (by decide +kernel)
  convert this using 1
  · simp [expectedA7]
  · norm_num

/-- `TestTemporalAlignment.CtraDetection`, test/test_temporal_alignment.cpp:152-205, the object modified
in place; `CtraTrack`, 326-381, has the same numbers -/
theorem TemporalAlignment_CtraDetection (u : Uuid) (k : SemanticClass) :
    ∃ s P, propagate 1 (unscentedTransform eigenLlt 1 2 1) (⟨0, meanA, covA, u, k⟩ : DynObj CtraState CtraCov) =
        (⟨1, s, P, u, k⟩, .ok ()) ∧ CtraNear s expectedA8 1e-4 ∧ CovNearA P expectedCovA8 1e-4 := by
  obtain ⟨x, P, h, hx, hP⟩ := predict_nearA 1 2 8 (2 / 8) (2 / 8 + 1) (by norm_num) (by norm_num)
    (by norm_num) (by norm_num) (by exact_mod_cast root8_has) rowsA8_ok
    (X := meanA8) meanA8_ok (E := expectedCovA8) (tol := 9 / 10 ^ 5) covA8_ok
  refine ⟨.ofVec x, P, ?_, ?_, fun i j => (hP i j).trans (by norm_num)⟩
  · simp only [propagate, unscentedTransform, sub_zero, h]
  · have := ofVec_nearA hx ![7.79608, 3.06936, 3.2049, 0.8543, 0.3528, 1] 1e-4 (by decide +kernel)
      (by decide +kernel) (by decide +kernel)
    convert this using 1
    · simp [expectedA8]
    · norm_num

/-- the second half of both tests: the object returned by `predict_to_time` -/
theorem TemporalAlignment_CtraTrack (u : Uuid) (k : SemanticClass) :
    ∃ s P, predict (⟨0, meanA, covA, u, k⟩ : DynObj CtraState CtraCov) 1 (unscentedTransform eigenLlt 1 2 1) =
        .ok ⟨1, s, P, u, k⟩ ∧ CtraNear s expectedA8 1e-4 ∧ CovNearA P expectedCovA8 1e-4 := by
  obtain ⟨s, P, h, hs, hP⟩ := TemporalAlignment_CtraDetection u k
  exact ⟨s, P, by simp only [predict, h], hs, hP⟩

end Mot.Checks
