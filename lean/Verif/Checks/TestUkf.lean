import Verif.Checks.IntervalUkf
import Verif.Checks.TestScoring
import Verif.Proofs.Cholesky
/-!
# The unit tests of the repository, run on the model: prediction

Tests of the model, not properties of the code; see `TestTracking.lean`.  The Cholesky
factorisation is any function that meets the contract of `Eigen::LLT`; its result on the
covariance of the tests is enclosed in intervals, and the prediction is evaluated in interval
arithmetic.

The two tests `CtrvPrediction` and `CtrvDetection` predict the same state with the same three
parameters, the first by a call of `unscented_kalman_filter_predict`, the second through
`UnscentedTransform`, and expect different covariances.  The model meets both because
`UnscentedTransform` passes its last two parameters in the other order.
-/

namespace Mot.Checks

open Real Matrix Spec

/-- `meanV` in an enclosure -/
def meanIvl : CtrvIvl := ⟨.pt 5.7441, .pt 1.38, .pt 2.2049, .pt 0.5015, .pt 0.3528⟩

theorem meanIvl_has : meanIvl.Has meanV := by
  refine ⟨Ivl.has_num ?_, Ivl.has_num ?_, Ivl.has_num ?_, Ivl.has_num ?_, Ivl.has_num ?_⟩
  · simp only [meanV]; norm_num
  · simp only [meanV]; norm_num
  · simp only [meanV]; norm_num
  · simp only [meanV, getM]; norm_num
  · simp only [meanV]; norm_num

/-! ## The Cholesky factor of the covariance of the tests -/

/-- `covV = ldlU · diag(ldlD) · ldlUᵀ` -/
noncomputable def ldlU : Matrix (Fin 5) (Fin 5) ℝ :=
  !![1, 0, 0, 0, 0;
     -13/43, 1, 0, 0, 0;
     30/43, 863/3142, 1, 0, 0;
     -22/43, 2767/3142, 14687/86585, 1, 0;
     -20/43, 1160/1571, 22416/86585, 888431/633857, 1]
/-- see `ldlU` -/
noncomputable def ldlD : Fin 5 → ℝ := ![43/10000, 1571/215000, 17317/6284000, 633857/216462500, 9181479/6338570000]

theorem covV_ldl : covV = ldlU * diagonal ldlD * ldlUᴴ := by
  ext i j
  rw [Matrix.mul_apply, Fin.sum_univ_five]
  simp only [Matrix.mul_diagonal, Matrix.conjTranspose_apply, star_trivial]
  fin_cases i <;> fin_cases j <;> simp [covV, ldlU, ldlD] <;> norm_num

theorem ldlU_det : ldlU.det = 1 := by
  rw [Matrix.det_of_isLowerTriangular ldlU (by
    intro i j hij
    fin_cases i <;> fin_cases j <;> first | rfl | (exact absurd hij (by decide)))]
  rw [Fin.prod_univ_five]
  simp [ldlU]

theorem covV_posDef : covV.PosDef := by
  rw [covV_ldl]
  refine (Matrix.PosDef.diagonal ?_).mul_mul_conjTranspose_same ?_
  · intro i
    fin_cases i <;> simp [ldlD]
  · have : IsUnit ldlU := (Matrix.isUnit_iff_isUnit_det _).2 (by rw [ldlU_det]; exact isUnit_one)
    exact Matrix.vecMul_injective_of_isUnit this

/-- enclosures of the entries of the Cholesky factor -/
def cholIvl : Fin 5 → Fin 5 → Ivl :=
  !![Ivl.near (65574385243020007/10^18) (1/10^17), .pt 0, .pt 0, .pt 0, .pt 0;
     Ivl.near (-19824814143238607/10^18) (1/10^17), Ivl.near (85480856009904618/10^18) (1/10^16), .pt 0, .pt 0, .pt 0;
     Ivl.near (45749571099781400/10^18) (1/10^17), Ivl.near (23478669235056552/10^18) (1/10^16), Ivl.near (52495036290461363/10^18) (1/10^15), .pt 0, .pt 0;
     Ivl.near (-33549685473173027/10^18) (1/10^17), Ivl.near (75278653271612374/10^18) (1/10^16), Ivl.near (8904482277507721/10^18) (1/10^15), Ivl.near (54113336264114019/10^18) (1/10^13), .pt 0;
     Ivl.near (-30499714066520933/10^18) (1/10^17), Ivl.near (63117627607568019/10^18) (1/10^16), Ivl.near (13590445613986047/10^18) (1/10^15), Ivl.near (75846705882341098/10^18) (1/10^12), Ivl.near (38059289560681033/10^18) (1/10^11)]

theorem cholIvl_has {L : Matrix (Fin 5) (Fin 5) ℝ} (h : IsCholesky L covV) (i j : Fin 5) :
    (cholIvl i j).Has (L i j) := by
  have e : ∀ i j, L i 0 * L j 0 + L i 1 * L j 1 + L i 2 * L j 2 + L i 3 * L j 3 + L i 4 * L j 4 =
      covV i j := by
    intro i j
    rw [← h.factor, Matrix.mul_apply, Fin.sum_univ_five]
    simp only [Matrix.transpose_apply]
  have z01 : L 0 1 = 0 := h.lower 0 1 (by decide)
  have z02 : L 0 2 = 0 := h.lower 0 2 (by decide)
  have z03 : L 0 3 = 0 := h.lower 0 3 (by decide)
  have z04 : L 0 4 = 0 := h.lower 0 4 (by decide)
  have z12 : L 1 2 = 0 := h.lower 1 2 (by decide)
  have z13 : L 1 3 = 0 := h.lower 1 3 (by decide)
  have z14 : L 1 4 = 0 := h.lower 1 4 (by decide)
  have z23 : L 2 3 = 0 := h.lower 2 3 (by decide)
  have z24 : L 2 4 = 0 := h.lower 2 4 (by decide)
  have z34 : L 3 4 = 0 := h.lower 3 4 (by decide)
  have p0 := h.diag 0
  have p1 := h.diag 1
  have p2 := h.diag 2
  have p3 := h.diag 3
  have p4 := h.diag 4
  have c00 : (cholIvl 0 0).Has (L 0 0) := by
    have h0 := e 0 0
    rw [show covV 0 0 = (43/10000) by simp [covV]; norm_num, z01, z02, z03, z04] at h0
    have h1 : L 0 0 = √((43/10000)) := by
      rw [show ((43/10000) : ℝ) = L 0 0 * L 0 0 by linarith, Real.sqrt_mul_self p0.le]
    rw [h1]
    exact Ivl.Has.sqrt (Ivl.has_num (x := (43/10000)) (q := (43/10000)) (by norm_num)) (by decide +kernel)
  have c10 : (cholIvl 1 0).Has (L 1 0) := by
    have h0 := e 1 0
    rw [show covV 1 0 = (-13/10000) by simp [covV]; norm_num, z01, z02, z03, z04, z12, z13, z14] at h0
    have h1 : L 1 0 = ((-13/10000)) / L 0 0 := by
      rw [eq_div_iff p0.ne']; linarith
    rw [h1]
    exact (Ivl.Has.div (Ivl.has_num (x := (-13/10000)) (q := (-13/10000)) (by norm_num)) c00 (by decide +kernel)).mono (by decide +kernel)
  have c20 : (cholIvl 2 0).Has (L 2 0) := by
    have h0 := e 2 0
    rw [show covV 2 0 = (3/1000) by simp [covV]; norm_num, z01, z02, z03, z04, z23, z24] at h0
    have h1 : L 2 0 = ((3/1000)) / L 0 0 := by
      rw [eq_div_iff p0.ne']; linarith
    rw [h1]
    exact (Ivl.Has.div (Ivl.has_num (x := (3/1000)) (q := (3/1000)) (by norm_num)) c00 (by decide +kernel)).mono (by decide +kernel)
  have c30 : (cholIvl 3 0).Has (L 3 0) := by
    have h0 := e 3 0
    rw [show covV 3 0 = (-11/5000) by simp [covV]; norm_num, z01, z02, z03, z04, z34] at h0
    have h1 : L 3 0 = ((-11/5000)) / L 0 0 := by
      rw [eq_div_iff p0.ne']; linarith
    rw [h1]
    exact (Ivl.Has.div (Ivl.has_num (x := (-11/5000)) (q := (-11/5000)) (by norm_num)) c00 (by decide +kernel)).mono (by decide +kernel)
  have c40 : (cholIvl 4 0).Has (L 4 0) := by
    have h0 := e 4 0
    rw [show covV 4 0 = (-1/500) by simp [covV]; norm_num, z01, z02, z03, z04] at h0
    have h1 : L 4 0 = ((-1/500)) / L 0 0 := by
      rw [eq_div_iff p0.ne']; linarith
    rw [h1]
    exact (Ivl.Has.div (Ivl.has_num (x := (-1/500)) (q := (-1/500)) (by norm_num)) c00 (by decide +kernel)).mono (by decide +kernel)
  have c11 : (cholIvl 1 1).Has (L 1 1) := by
    have h0 := e 1 1
    rw [show covV 1 1 = (77/10000) by simp [covV]; norm_num, z12, z13, z14] at h0
    have h1 : L 1 1 = √((77/10000) - L 1 0 * L 1 0) := by
      rw [show ((77/10000) : ℝ) - L 1 0 * L 1 0 = L 1 1 * L 1 1 by linarith, Real.sqrt_mul_self p1.le]
    rw [h1]
    exact Ivl.Has.sqrt ((Ivl.has_num (x := (77/10000)) (q := (77/10000)) (by norm_num)).sub (c10.mul c10)) (by decide +kernel)
  have c21 : (cholIvl 2 1).Has (L 2 1) := by
    have h0 := e 2 1
    rw [show covV 2 1 = (11/10000) by simp [covV]; norm_num, z12, z13, z14, z23, z24] at h0
    have h1 : L 2 1 = ((11/10000) - L 2 0 * L 1 0) / L 1 1 := by
      rw [eq_div_iff p1.ne']; linarith
    rw [h1]
    exact (Ivl.Has.div ((Ivl.has_num (x := (11/10000)) (q := (11/10000)) (by norm_num)).sub (c20.mul c10)) c11 (by decide +kernel)).mono (by decide +kernel)
  have c31 : (cholIvl 3 1).Has (L 3 1) := by
    have h0 := e 3 1
    rw [show covV 3 1 = (71/10000) by simp [covV]; norm_num, z12, z13, z14, z34] at h0
    have h1 : L 3 1 = ((71/10000) - L 3 0 * L 1 0) / L 1 1 := by
      rw [eq_div_iff p1.ne']; linarith
    rw [h1]
    exact (Ivl.Has.div ((Ivl.has_num (x := (71/10000)) (q := (71/10000)) (by norm_num)).sub (c30.mul c10)) c11 (by decide +kernel)).mono (by decide +kernel)
  have c41 : (cholIvl 4 1).Has (L 4 1) := by
    have h0 := e 4 1
    rw [show covV 4 1 = (3/500) by simp [covV]; norm_num, z12, z13, z14] at h0
    have h1 : L 4 1 = ((3/500) - L 4 0 * L 1 0) / L 1 1 := by
      rw [eq_div_iff p1.ne']; linarith
    rw [h1]
    exact (Ivl.Has.div ((Ivl.has_num (x := (3/500)) (q := (3/500)) (by norm_num)).sub (c40.mul c10)) c11 (by decide +kernel)).mono (by decide +kernel)
  have c22 : (cholIvl 2 2).Has (L 2 2) := by
    have h0 := e 2 2
    rw [show covV 2 2 = (27/5000) by simp [covV]; norm_num, z23, z24] at h0
    have h1 : L 2 2 = √((27/5000) - L 2 0 * L 2 0 - L 2 1 * L 2 1) := by
      rw [show ((27/5000) : ℝ) - L 2 0 * L 2 0 - L 2 1 * L 2 1 = L 2 2 * L 2 2 by linarith, Real.sqrt_mul_self p2.le]
    rw [h1]
    exact Ivl.Has.sqrt (((Ivl.has_num (x := (27/5000)) (q := (27/5000)) (by norm_num)).sub (c20.mul c20)).sub (c21.mul c21)) (by decide +kernel)
  have c32 : (cholIvl 3 2).Has (L 3 2) := by
    have h0 := e 3 2
    rw [show covV 3 2 = (7/10000) by simp [covV]; norm_num, z23, z24, z34] at h0
    have h1 : L 3 2 = ((7/10000) - L 3 0 * L 2 0 - L 3 1 * L 2 1) / L 2 2 := by
      rw [eq_div_iff p2.ne']; linarith
    rw [h1]
    exact (Ivl.Has.div (((Ivl.has_num (x := (7/10000)) (q := (7/10000)) (by norm_num)).sub (c30.mul c20)).sub (c31.mul c21)) c22 (by decide +kernel)).mono (by decide +kernel)
  have c42 : (cholIvl 4 2).Has (L 4 2) := by
    have h0 := e 4 2
    rw [show covV 4 2 = (1/1250) by simp [covV]; norm_num, z23, z24] at h0
    have h1 : L 4 2 = ((1/1250) - L 4 0 * L 2 0 - L 4 1 * L 2 1) / L 2 2 := by
      rw [eq_div_iff p2.ne']; linarith
    rw [h1]
    exact (Ivl.Has.div (((Ivl.has_num (x := (1/1250)) (q := (1/1250)) (by norm_num)).sub (c40.mul c20)).sub (c41.mul c21)) c22 (by decide +kernel)).mono (by decide +kernel)
  have c33 : (cholIvl 3 3).Has (L 3 3) := by
    have h0 := e 3 3
    rw [show covV 3 3 = (49/5000) by simp [covV]; norm_num, z34] at h0
    have h1 : L 3 3 = √((49/5000) - L 3 0 * L 3 0 - L 3 1 * L 3 1 - L 3 2 * L 3 2) := by
      rw [show ((49/5000) : ℝ) - L 3 0 * L 3 0 - L 3 1 * L 3 1 - L 3 2 * L 3 2 = L 3 3 * L 3 3 by linarith, Real.sqrt_mul_self p3.le]
    rw [h1]
    exact Ivl.Has.sqrt ((((Ivl.has_num (x := (49/5000)) (q := (49/5000)) (by norm_num)).sub (c30.mul c30)).sub (c31.mul c31)).sub (c32.mul c32)) (by decide +kernel)
  have c43 : (cholIvl 4 3).Has (L 4 3) := by
    have h0 := e 4 3
    rw [show covV 4 3 = (1/100) by simp [covV]; norm_num, z34] at h0
    have h1 : L 4 3 = ((1/100) - L 4 0 * L 3 0 - L 4 1 * L 3 1 - L 4 2 * L 3 2) / L 3 3 := by
      rw [eq_div_iff p3.ne']; linarith
    rw [h1]
    exact (Ivl.Has.div ((((Ivl.has_num (x := (1/100)) (q := (1/100)) (by norm_num)).sub (c40.mul c30)).sub (c41.mul c31)).sub (c42.mul c32)) c33 (by decide +kernel)).mono (by decide +kernel)
  have c44 : (cholIvl 4 4).Has (L 4 4) := by
    have h0 := e 4 4
    rw [show covV 4 4 = (123/10000) by simp [covV]; norm_num] at h0
    have h1 : L 4 4 = √((123/10000) - L 4 0 * L 4 0 - L 4 1 * L 4 1 - L 4 2 * L 4 2 - L 4 3 * L 4 3) := by
      rw [show ((123/10000) : ℝ) - L 4 0 * L 4 0 - L 4 1 * L 4 1 - L 4 2 * L 4 2 - L 4 3 * L 4 3 = L 4 4 * L 4 4 by linarith, Real.sqrt_mul_self p4.le]
    rw [h1]
    exact Ivl.Has.sqrt (((((Ivl.has_num (x := (123/10000)) (q := (123/10000)) (by norm_num)).sub (c40.mul c40)).sub (c41.mul c41)).sub (c42.mul c42)).sub (c43.mul c43)) (by decide +kernel)
  have c01 : (cholIvl 0 1).Has (L 0 1) := by
    rw [z01]; exact (Ivl.has_num (q := 0) (by norm_num) : (Ivl.pt 0).Has 0)
  have c02 : (cholIvl 0 2).Has (L 0 2) := by
    rw [z02]; exact (Ivl.has_num (q := 0) (by norm_num) : (Ivl.pt 0).Has 0)
  have c03 : (cholIvl 0 3).Has (L 0 3) := by
    rw [z03]; exact (Ivl.has_num (q := 0) (by norm_num) : (Ivl.pt 0).Has 0)
  have c04 : (cholIvl 0 4).Has (L 0 4) := by
    rw [z04]; exact (Ivl.has_num (q := 0) (by norm_num) : (Ivl.pt 0).Has 0)
  have c12 : (cholIvl 1 2).Has (L 1 2) := by
    rw [z12]; exact (Ivl.has_num (q := 0) (by norm_num) : (Ivl.pt 0).Has 0)
  have c13 : (cholIvl 1 3).Has (L 1 3) := by
    rw [z13]; exact (Ivl.has_num (q := 0) (by norm_num) : (Ivl.pt 0).Has 0)
  have c14 : (cholIvl 1 4).Has (L 1 4) := by
    rw [z14]; exact (Ivl.has_num (q := 0) (by norm_num) : (Ivl.pt 0).Has 0)
  have c23 : (cholIvl 2 3).Has (L 2 3) := by
    rw [z23]; exact (Ivl.has_num (q := 0) (by norm_num) : (Ivl.pt 0).Has 0)
  have c24 : (cholIvl 2 4).Has (L 2 4) := by
    rw [z24]; exact (Ivl.has_num (q := 0) (by norm_num) : (Ivl.pt 0).Has 0)
  have c34 : (cholIvl 3 4).Has (L 3 4) := by
    rw [z34]; exact (Ivl.has_num (q := 0) (by norm_num) : (Ivl.pt 0).Has 0)
  fin_cases i <;> fin_cases j
  exacts [c00, c01, c02, c03, c04, c10, c11, c12, c13, c14, c20, c21, c22, c23, c24, c30, c31, c32, c33, c34, c40, c41, c42, c43, c44]

/-! ## Prediction -/

/-- an interval of half width `2·10⁻⁹` -/
def m (k : ℤ) : Ivl := ⟨(k - 2000) / 10 ^ 12, (k + 2000) / 10 ^ 12⟩

/-- the prediction of the state itself -/
def nextIvl : CtrvIvl := ⟨m (7452585050081), m (2755661908929), m (2204900000000), m (854300000000), m (352800000000)⟩

/-- the predictions of the sigma points for `n + λ = 6` -/
def rows6 : Fin 5 → CtrvIvl × CtrvIvl :=
  ![(⟨m (7863465115549), m (2555017281859), m (2316963105146), m (697411652796), m (278091263236)⟩,
     ⟨m (7034309806977), m (2914745387077), m (2092836894854), m (1011188347204), m (427508736764)⟩),
    (⟨m (7064902368112), m (3396344320166), m (2262410759465), m (1193300270453), m (507405981414)⟩,
     ⟨m (7704955179311), m (2037363853887), m (2147389240535), m (515299729547), m (198194018586)⟩),
    (⟨m (7493112388276), m (2902763188513), m (2333486052941), m (909401095135), m (386089657131)⟩,
     ⟨m (7403114219254), m (2613774947426), m (2076313947059), m (799198904865), m (319510342869)⟩),
    (⟨m (7092470468160), m (3090874931221), m (2204900000000), m (1172635790209), m (538585728083)⟩,
     ⟨m (7724829397242), m (2342810941612), m (2204900000000), m (535964209791), m (167014271917)⟩),
    (⟨m (7381526357746), m (2829260129707), m (2204900000000), m (947525839397), m (446025839397)⟩,
     ⟨m (7519053554207), m (2677647039662), m (2204900000000), m (761074160603), m (259574160603)⟩)]

/-- the mean of the predictions for `n + λ = 6` -/
def mean6 : Fin 5 → Ivl := ![Ivl.near (7432242412916/10^12) (1/10^8), Ivl.near (2739327153249/10^12) (1/10^8), Ivl.near (2204900000000/10^12) (1/10^8), Ivl.near (854300000000/10^12) (1/10^8), Ivl.near (352800000000/10^12) (1/10^8)]

/-- the predictions of the sigma points for `n + λ = 7` -/
def rows7 : Fin 5 → CtrvIvl × CtrvIvl :=
  ![(⟨m (7895871153762), m (2537145785501), m (2325941987718), m (684841217195), m (272105341521)⟩,
     ⟨m (7000668621562), m (2925705995408), m (2083858012282), m (1023758782805), m (433494658479)⟩),
    (⟨m (7028654444101), m (3443173773310), m (2267018719911), m (1220462141583), m (519793545994)⟩,
     ⟨m (7718842704080), m (1977676437095), m (2142781280089), m (488137858417), m (185806454006)⟩),
    (⟨m (7495962285585), m (2914759625674), m (2343788811090), m (913815984961), m (388756939301)⟩,
     ⟨m (7398774197820), m (2602647225189), m (2066011188910), m (794784015039), m (316843060699)⟩),
    (⟨m (7060451808575), m (3113769843670), m (2204900000000), m (1198141951895), m (553471521528)⟩,
     ⟨m (7742292494165), m (2307060945352), m (2204900000000), m (510458048105), m (152128478472)⟩),
    (⟨m (7375643892097), m (2834956680853), m (2204900000000), m (954995415253), m (453495415253)⟩,
     ⟨m (7524171365619), m (2671214765277), m (2204900000000), m (753604584747), m (252104584747)⟩)]

/-- the mean of the predictions for `n + λ = 7` -/
def mean7 : Fin 5 → Ivl := ![Ivl.near (7432262369121/10^12) (1/10^8), Ivl.near (2739339908075/10^12) (1/10^8), Ivl.near (2204900000000/10^12) (1/10^8), Ivl.near (854300000000/10^12) (1/10^8), Ivl.near (352800000000/10^12) (1/10^8)]

/-- enclosures of `√6` and `√7` -/
def root6 : Ivl := Ivl.near (2449489742783178098/10^18) (1/10^16)
def root7 : Ivl := Ivl.near (2645751311064590591/10^18) (1/10^16)

theorem root6_has : root6.Has √6 := (Ivl.has_num (q := 6) (by norm_num)).sqrt (by decide +kernel)
theorem root7_has : root7.Has √7 := (Ivl.has_num (q := 7) (by norm_num)).sqrt (by decide +kernel)

theorem next_ok : (meanIvl.nextOk && meanIvl.next.sub? nextIvl && head nextIvl.yaw) = true := by
  decide +kernel

theorem rows6_ok (j : Fin 5) : pairOk meanIvl root6 cholIvl j (rows6 j) = true := by
  revert j; decide +kernel

theorem rows7_ok (j : Fin 5) : pairOk meanIvl root7 cholIvl j (rows7 j) = true := by
  revert j; decide +kernel

/-- all rows -/
def allRows (R : Fin 5 → CtrvIvl × CtrvIvl) : List (Fin 5 → Ivl) :=
  nextIvl.toVec :: (List.finRange 5).flatMap fun j => [(R j).1.toVec, (R j).2.toVec]

theorem mean6_ok (i : Fin 5) :
    (wsum (1 / 6 :: List.replicate 10 (1 / (2 * 6))) ((allRows rows6).map (· i))).sub? (mean6 i) = true := by
  revert i; decide +kernel

theorem mean7_ok (i : Fin 5) :
    (wsum (2 / 7 :: List.replicate 10 (1 / (2 * 7))) ((allRows rows7).map (· i))).sub? (mean7 i) = true := by
  revert i; decide +kernel

/-- `CtrvPrediction`, test/test_unscented_kalman_filter.cpp:49-56 -/
noncomputable def expected6 : CtrvState := ⟨7.43224, 2.73933, 2.2049, Angle.ofRad 0.8543, 0.3528⟩
def expectedCov6 : Fin 5 → Fin 5 → ℚ :=
  !![0.0650073, -0.0670999, 0.00564003, -0.0463523, -0.0240175;
     -0.0670999, 0.11094, 0.00625031, 0.0654438, 0.0333096;
     0.00564003, 0.00625031, 0.0054, 0.0015, 0.000800002;
     -0.0463523, 0.0654438, 0.0015, 0.0421, 0.0223;
     -0.0240175, 0.0333096, 0.000800002, 0.0223, 0.0123]

/-- `CtrvDetection`, test/test_temporal_alignment.cpp:58-66 -/
noncomputable def expected7 : CtrvState := ⟨7.43226, 2.73934, 2.2049, Angle.ofRad 0.8543, 0.3528⟩
def expectedCov7 : Fin 5 → Fin 5 → ℚ :=
  !![0.064633, -0.0671223, 0.00564156, -0.0462884, -0.0239845;
     -0.0671223, 0.110445, 0.00623941, 0.0653499, 0.0332627;
     0.00564156, 0.00623941, 0.0054, 0.0015, 0.000800001;
     -0.0462884, 0.0653499, 0.0015, 0.0421, 0.0223;
     -0.0239845, 0.0332627, 0.000800001, 0.0223, 0.0123]

/-- enclosure of an entry of the covariance -/
def covIvl (R : Fin 5 → CtrvIvl × CtrvIvl) (X : Fin 5 → Ivl) (ws : List ℚ) (i j : Fin 5) : Ivl :=
  wsum ws ((allRows R).map fun I => ((I i).sub (X i)).mul ((I j).sub (X j)))

theorem cov6_ok (i j : Fin 5) : (covIvl rows6 mean6 ((1 / 6 + 2) :: List.replicate 10 (1 / (2 * 6))) i j).sub?
    (Ivl.near (expectedCov6 i j) (1 / 10 ^ 6)) = true := by
  revert i j; decide +kernel

theorem cov7_ok (i j : Fin 5) : (covIvl rows7 mean7 ((2 / 7 + 1) :: List.replicate 10 (1 / (2 * 7))) i j).sub?
    (Ivl.near (expectedCov7 i j) (1 / 10 ^ 6)) = true := by
  revert i j; decide +kernel

/-- `EigenMatrixNear`, test/multiple_object_tracking/test/gmock_matchers.hpp -/
def CovNear (P : CtrvCov) (E : Fin 5 → Fin 5 → ℚ) (tol : ℚ) : Prop :=
  ∀ i j, |P i j - E i j| ≤ tol

/-- a state built from enclosed variables is near the expected one -/
theorem ofVec_near {X : Fin 5 → Ivl} {x : Fin 5 → ℝ} (hx : ∀ i, (X i).Has (x i))
    (e : Fin 5 → ℚ) (tol : ℚ) (hh : head (X 3) = true) (he : 0 ≤ e 3 ∧ e 3 ≤ 3)
    (h : ∀ i, (X i).sub? (Ivl.near (e i) tol) = true) :
    CtrvNear (.ofVec x) ⟨e 0, e 1, e 2, Angle.ofRad (e 3), e 4⟩ tol := by
  have hn : ∀ i, |x i - e i| ≤ tol := fun i => Ivl.has_near.1 ((hx i).mono (h i))
  have e3 : (Angle.ofRad (e 3 : ℝ)).getAngle = e 3 :=
    getAngle_lit (by exact_mod_cast he.1) (by have : (e 3 : ℝ) ≤ 3 := by exact_mod_cast he.2
                                              linarith)
  refine ⟨hn 0, hn 1, hn 2, ?_, hn 4⟩
  show |(Angle.ofRad (x 3)).getAngle - (Angle.ofRad (e 3 : ℝ)).getAngle| ≤ tol
  rw [getAngle_head (hx 3) hh, e3]
  exact hn 3

/-- the prediction, evaluated -/
theorem predict_near {chol : Chol} (hc : IsLlt chol) (β κ : ℝ) (N b0 c0 : ℚ) (hN : 1 ^ 2 * ((5 : ℕ) + κ) = N)
    (hN0 : 0 < N) (hb : κ / N = b0) (hc0 : κ / N + β = c0) {r : Ivl} (hr : r.Has √(N : ℝ))
    {R : Fin 5 → CtrvIvl × CtrvIvl} (hR : ∀ j, pairOk meanIvl r cholIvl j (R j) = true)
    {X : Fin 5 → Ivl}
    (hX : ∀ i, (wsum (b0 :: List.replicate 10 (1 / (2 * N))) ((allRows R).map (· i))).sub? (X i) = true)
    {E : Fin 5 → Fin 5 → ℚ} {tol : ℚ}
    (hE : ∀ i j, (covIvl R X (c0 :: List.replicate 10 (1 / (2 * N))) i j).sub? (Ivl.near (E i j) tol) = true) :
    ∃ x P, ukfPredict chol meanV covV 1 1 β κ = .ok (.ofVec x, P) ∧ (∀ i, (X i).Has (x i)) ∧
      CovNear P E tol := by
  have hN0' : (0 : ℝ) < N := by exact_mod_cast hN0
  have hrows := predictedRows_has meanIvl_has hr (cholIvl_has (hc 5 covV covV_posDef)) next_ok hR
  have hlam : generateLambda 5 1 κ = κ := by unfold generateLambda; push_cast; ring
  have hw : ∀ c : ℚ, (c : ℝ) :: List.replicate (2 * 5) (1 / (2 * (N : ℝ))) =
      (c :: List.replicate 10 (1 / (2 * N))).map (fun q : ℚ => (q : ℝ)) := by
    intro c
    simp only [List.map_cons, List.map_replicate]
    push_cast
    rfl
  rw [ukfPredict_eq chol meanV covV 1 1 β κ (by rw [hN]; exact hN0')]
  simp only [hN, hlam, hb]
  rw [show (1 : ℝ) - 1 ^ 2 + β = β by ring, ← hb, hc0, hb, hw, hw]
  have hlen : (predictedRows meanV (chol 5 covV) √(N : ℝ) 1).length = 11 := by
    rw [← hrows.length_eq]; rfl
  unfold computeUt
  rw [if_pos ⟨by simp [hlen], by simp [hlen]⟩]
  have hx : ∀ i, (X i).Has _ := fun i => (mean_has hrows (b0 :: List.replicate 10 (1 / (2 * N))) i).mono (hX i)
  refine ⟨_, _, rfl, hx, fun i j => ?_⟩
  exact Ivl.has_near.1 ((cov_has hrows hx (c0 :: List.replicate 10 (1 / (2 * N))) i j).mono (hE i j))

/-- `TestUnscentedKalmanFilter.CtrvPrediction`, test/test_unscented_kalman_filter.cpp:37-70; the
tolerances of the test are `10⁻⁴` -/
theorem UnscentedKalmanFilter_CtrvPrediction {chol : Chol} (hc : IsLlt chol) :
    ∃ s P, ukfPredict chol meanV covV 1 1 2 1 = .ok (s, P) ∧ CtrvNear s expected6 1e-4 ∧
      CovNear P expectedCov6 1e-4 := by
  obtain ⟨x, P, h, hx, hP⟩ := predict_near hc 2 1 6 (1 / 6) (1 / 6 + 2) (by norm_num) (by norm_num)
    (by norm_num) (by norm_num) (by exact_mod_cast root6_has) rows6_ok
    (X := mean6) mean6_ok (E := expectedCov6) (tol := 1 / 10 ^ 6) cov6_ok
  refine ⟨_, P, h, ?_, fun i j => (hP i j).trans (by norm_num)⟩
  have := ofVec_near hx ![7.43224, 2.73933, 2.2049, 0.8543, 0.3528] 1e-4 (by decide +kernel)
    (by decide +kernel) (by decide +kernel)
  convert this using 1
  · simp [expected6]
  · norm_num

/-- `TestTemporalAlignment.CtrvDetection`, test/test_temporal_alignment.cpp:40-95, the object modified
in place; `CtrvTrack`, 269-321, has the same numbers, and tracks and detections are one type here -/
theorem TemporalAlignment_CtrvDetection {chol : Chol} (hc : IsLlt chol) (u : Uuid) (k : SemanticClass) :
    ∃ s P, propagate 1 (unscentedTransform chol 1 2 1) (⟨0, meanV, covV, u, k⟩ : DynObj CtrvState CtrvCov) =
        (⟨1, s, P, u, k⟩, .ok ()) ∧ CtrvNear s expected7 1e-4 ∧ CovNear P expectedCov7 1e-4 := by
  obtain ⟨x, P, h, hx, hP⟩ := predict_near hc 1 2 7 (2 / 7) (2 / 7 + 1) (by norm_num) (by norm_num)
    (by norm_num) (by norm_num) (by exact_mod_cast root7_has) rows7_ok
    (X := mean7) mean7_ok (E := expectedCov7) (tol := 1 / 10 ^ 6) cov7_ok
  refine ⟨.ofVec x, P, ?_, ?_, fun i j => (hP i j).trans (by norm_num)⟩
  · simp only [propagate, unscentedTransform, sub_zero, h]
  · have := ofVec_near hx ![7.43226, 2.73934, 2.2049, 0.8543, 0.3528] 1e-4 (by decide +kernel)
      (by decide +kernel) (by decide +kernel)
    convert this using 1
    · simp [expected7]
    · norm_num

/-- the second half of both tests: the object returned by `predict_to_time` -/
theorem TemporalAlignment_CtrvTrack {chol : Chol} (hc : IsLlt chol) (u : Uuid) (k : SemanticClass) :
    ∃ s P, predict (⟨0, meanV, covV, u, k⟩ : DynObj CtrvState CtrvCov) 1 (unscentedTransform chol 1 2 1) =
        .ok ⟨1, s, P, u, k⟩ ∧ CtrvNear s expected7 1e-4 ∧ CovNear P expectedCov7 1e-4 := by
  obtain ⟨s, P, h, hs, hP⟩ := TemporalAlignment_CtrvDetection hc u k
  exact ⟨s, P, by simp only [predict, h], hs, hP⟩

end Mot.Checks
