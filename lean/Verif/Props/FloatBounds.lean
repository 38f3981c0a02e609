import Verif.Proofs.FloatBounds
import Verif.Props.FloatPeriod
/-!
# The prediction of an ordinary object is finite (C129)
-/

namespace Mot.Props

open Mot Spec Manager Matrix

variable {m : Libm}

section
variable {n : ℕ} {P : Matrix (Fin n) (Fin n) ℚ} {L : Matrix (Fin n) (Fin n) FP} {r : Option (Fin n)}

/-- the offsets of the sigma points of an ordinary object -/
private theorem offsets_ordinary (hn : 2 ≤ n) (hn' : n ≤ 6) (hP : OrdinaryCov P) (h : IsLltF (finite P) L r) :
    ∃ d : Fin n → Fin n → ℚ, (∀ i j, FP.mul binary32 (spreadF n (.fin 2)) (L i j) = .fin (d i j)) ∧
      ∀ i j, |d i j| ≤ 768 := by
  obtain ⟨d, h1, h2, -⟩ := offsets_default hn hn' hP.symm hP.lower hP.margin h (σ := fun _ => 2 ^ 8) (fun _ => by norm_num)
    (fun i => (hP.upper i).trans (by norm_num)) (fun _ => by norm_num)
  exact ⟨d, h1, fun i j => (h2 i j).trans (by norm_num)⟩

/-- the numbers of the sigma points -/
private theorem exactPoints_le {z : Fin n → ℚ} {d : Fin n → Fin n → ℚ} (hd : ∀ i j, |d i j| ≤ 768) {e : Fin n → ℚ}
    (he : e ∈ exactPoints z d) (i : Fin n) : |e i| ≤ |z i| + 768 := by
  obtain ⟨j, -, h⟩ := List.mem_flatMap.1 he
  rcases List.mem_cons.1 h with rfl | h
  · exact (abs_add_le _ _).trans (by gcongr; exact hd i j)
  · obtain rfl := List.mem_singleton.1 h
    exact (abs_sub _ _).trans (by gcongr; exact hd i j)

end

/-- C129: every number of the prediction of an ordinary object is finite: position, speed, heading, rates and the whole covariance
matrix.  The coordinates are at most 2²⁸ and the heading is from 0 to 2π. -/
theorem C129_finite (hm : AccurateTrig m) (hm' : AccuratePhase m) {o o' : FObj m} (h : OrdinaryPrediction o o') :
    FiniteObj (2 ^ 28) o' := by
  have seven : ∀ {n : ℕ} {z : Fin n → ℚ}, OrdinaryState z → ∀ i, |z i| ≤ 2 ^ 100 := by
    intro n z hz i
    rcases lt_trichotomy i.1 2 with hi | hi | hi
    · exact (hz.position i hi).trans (by norm_num)
    · exact (hz.other i (.inl hi)).trans (by norm_num)
    · rcases (Nat.succ_le_of_lt hi).eq_or_lt with hi | hi
      · obtain ⟨h1, h2⟩ := hz.heading i hi.symm
        exact (heading_seven h1 h2).trans (by norm_num)
      · exact (hz.other i (.inr hi)).trans (by norm_num)
  cases h with
  | @ctrv o o' z P hs hz hd hP hP' L r hL hw T hT h =>
    rw [hP] at hL
    obtain ⟨d, d1, d2⟩ := offsets_ordinary (by norm_num) (by norm_num) hP' hL
    obtain ⟨a0, a1⟩ := hz.heading 3 rfl
    have hf : CtrvFields o.state (z 0) (z 1) (z 2) (z 4) (z 3) := ⟨hs 0, hs 1, hs 2, hs 4, hs 3, hd⟩
    have pts := C95_points_ctrv hm' (lam := .fin 2) hf (seven hz) (heading_seven a0 a1) (fun i j => (d2 i j).trans (by norm_num)) d1
    have z0 := hz.position 0 (by decide)
    have z1 := hz.position 1 (by decide)
    have z2 := hz.other 2 (by decide)
    have z4 := hz.other 4 (by decide)
    have rows : ∀ p ∈ o.state :: sigmaPointsF o.state L (.fin 2), ∀ j,
        FiniteWithin (rotateYawF (MotionModelF.toVec (MotionModelF.next p (.fin T))) j) (ctrvSize j) := by
      intro p hp
      have turn : ∀ w, p.yawRate = .fin w → w = 0 ∨ 1 / 2 ^ 60 ≤ |w| := fun w h =>
        hw w (List.mem_map.2 ⟨p, hp, h⟩)
      rcases List.mem_cons.1 hp with rfl | hp
      · exact ctrv_finite hm hm' hf a0 a1 (z0.trans (by norm_num)) (z1.trans (by norm_num)) (z2.trans (by norm_num))
          (z4.trans (by norm_num)) (turn _ hf.hw) (hT.trans (by norm_num))
      · obtain ⟨e, he, q, hq, q0, q1, -, qn⟩ := forall₂_partner pts hp
        have size : ∀ i, i ≠ 3 → |q i| ≤ 2 * (|z i| + 768) := fun i hi =>
          (nearestEven_le (qn i hi)).trans (by gcongr; exact exactPoints_le d2 he i)
        exact ctrv_finite hm hm' hq q0 q1 ((size 0 (by decide)).trans (by norm_num at z0 ⊢; linarith))
          ((size 1 (by decide)).trans (by norm_num at z1 ⊢; linarith)) ((size 2 (by decide)).trans (by norm_num at z2 ⊢; linarith))
          ((size 4 (by decide)).trans (by norm_num at z4 ⊢; linarith)) (turn _ hq.hw) (hT.trans (by norm_num))
    obtain ⟨⟨q, h1, h2, h3⟩, h4⟩ := transform_bounded (by norm_num) (by norm_num) (by decide +kernel)
      (fun j => by fin_cases j <;> norm_num [ctrvSize]) (fun j => by fin_cases j <;> norm_num [ctrvSize]) rows h
    choose P' hP' using h4
    obtain ⟨g, g0, g1, g2, -⟩ := getAngle_ofRad_dir hm' (q := q 3) ((h3 3).trans (show (2 * 4 : ℚ) ≤ _ by norm_num))
    refine .ctrv (q := fun i => if i = 3 then g else q i) (P := P') (fun i => ?_) (funext fun i => funext fun j => hP' i j)
      ((h3 0).trans (show (2 * 2 ^ 27 : ℚ) ≤ _ by norm_num)) ((h3 1).trans (show (2 * 2 ^ 27 : ℚ) ≤ _ by norm_num)) g1 g2
    rw [h1]
    fin_cases i
    · exact h2 0
    · exact h2 1
    · exact h2 2
    · show m.getAngle (m.ofRad (FP.conv binary64 (.fin (q 3)))) = _
      rw [h2]
      exact g0
    · exact h2 4
  | @ctra o o' z P hs hz hd hP hP' L r hL hw T hT h =>
    rw [hP] at hL
    obtain ⟨d, d1, d2⟩ := offsets_ordinary (by norm_num) (by norm_num) hP' hL
    obtain ⟨a0, a1⟩ := hz.heading 3 rfl
    have hf : FiniteCtra o.state (z 0) (z 1) (z 2) (z 4) (z 5) (z 3) := ⟨hs 0, hs 1, hs 2, hs 4, hs 5, hs 3, hd⟩
    have pts := C95_points_ctra hm' (lam := .fin 2) hf (seven hz) (heading_seven a0 a1) (fun i j => (d2 i j).trans (by norm_num)) d1
    have z0 := hz.position 0 (by decide)
    have z1 := hz.position 1 (by decide)
    have z2 := hz.other 2 (by decide)
    have z4 := hz.other 4 (by decide)
    have z5 := hz.other 5 (by decide)
    have rows : ∀ p ∈ o.state :: sigmaPointsF o.state L (.fin 2), ∀ j,
        FiniteWithin (rotateYawF (MotionModelF.toVec (MotionModelF.next p (.fin T))) j) (ctraSize j) := by
      intro p hp
      have turn : ∀ w, p.yawRate = .fin w → w = 0 ∨ 1 / 2 ^ 14 ≤ |w| := fun w h =>
        hw w (List.mem_map.2 ⟨p, hp, h⟩)
      rcases List.mem_cons.1 hp with rfl | hp
      · exact ctra_finite hm hm' hf a0 a1 (z0.trans (by norm_num)) (z1.trans (by norm_num)) (z2.trans (by norm_num))
          (z4.trans (by norm_num)) (z5.trans (by norm_num)) (turn _ hf.hw) (hT.trans (by norm_num))
      · obtain ⟨e, he, q, hq, q0, q1, -, qn⟩ := forall₂_partner pts hp
        have size : ∀ i, i ≠ 3 → |q i| ≤ 2 * (|z i| + 768) := fun i hi =>
          (nearestEven_le (qn i hi)).trans (by gcongr; exact exactPoints_le d2 he i)
        exact ctra_finite hm hm' hq q0 q1 ((size 0 (by decide)).trans (by norm_num at z0 ⊢; linarith))
          ((size 1 (by decide)).trans (by norm_num at z1 ⊢; linarith)) ((size 2 (by decide)).trans (by norm_num at z2 ⊢; linarith))
          ((size 4 (by decide)).trans (by norm_num at z4 ⊢; linarith)) ((size 5 (by decide)).trans (by norm_num at z5 ⊢; linarith))
          (turn _ hq.hw) (hT.trans (by norm_num))
    obtain ⟨⟨q, h1, h2, h3⟩, h4⟩ := transform_bounded (by norm_num) (by norm_num) (by decide +kernel)
      (fun j => by fin_cases j <;> norm_num [ctraSize]) (fun j => by fin_cases j <;> norm_num [ctraSize]) rows h
    choose P' hP' using h4
    obtain ⟨g, g0, g1, g2, -⟩ := getAngle_ofRad_dir hm' (q := q 3) ((h3 3).trans (show (2 * 4 : ℚ) ≤ _ by norm_num))
    refine .ctra (q := fun i => if i = 3 then g else q i) (P := P') (fun i => ?_) (funext fun i => funext fun j => hP' i j)
      ((h3 0).trans (show (2 * 2 ^ 27 : ℚ) ≤ _ by norm_num)) ((h3 1).trans (show (2 * 2 ^ 27 : ℚ) ≤ _ by norm_num)) g1 g2
    rw [h1]
    fin_cases i
    · exact h2 0
    · exact h2 1
    · exact h2 2
    · show m.getAngle (m.ofRad (FP.conv binary64 (.fin (q 3)))) = _
      rw [h2]
      exact g0
    · exact h2 4
    · exact h2 5

/-- the pose of a finite object -/
private theorem FiniteObj.pose {B : ℚ} (hB : 7 ≤ B) {o : FObj m} (h : FiniteObj B o) :
    ∃ a, poseOf CtrvStateF.pose CtraStateF.pose o = finPose a ∧ ∀ i, |a i| ≤ B := by
  cases h with
  | @ctrv o q P h hP hx hy h0 h1 =>
    refine ⟨![q 0, q 1, q 3], ?_, fun i => ?_⟩
    · show (⟨_, _, _⟩ : FPose) = ⟨_, _, _⟩
      rw [FPose.mk.injEq]
      exact ⟨h 0, h 1, h 3⟩
    · fin_cases i
      exacts [hx, hy, (heading_seven h0 h1).trans hB]
  | @ctra o q P h hP hx hy h0 h1 =>
    refine ⟨![q 0, q 1, q 3], ?_, fun i => ?_⟩
    · show (⟨_, _, _⟩ : FPose) = ⟨_, _, _⟩
      rw [FPose.mk.injEq]
      exact ⟨h 0, h 1, h 3⟩
    · fin_cases i
      exacts [hx, hy, (heading_seven h0 h1).trans hB]

/-- C129: so a period of ordinary objects with the Euclidean metric is undefined exactly if every pair is gated out, or all that are
left are at score 0 and form a full rectangle, or objects of different kinds are paired.  It completes if all objects are of one kind
and some pair that is not gated out has a score other than 0. -/
theorem C129_period (hm : AccurateTrig m) (hm' : AccuratePhase m) {n : ℕ} {mgr : Manager (FObj m)} (hr : ReachableIn _ _ n mgr)
    (hn : n + 3 < 2 ^ 64) {solve : Solver} (hs : IsPermSolver solve) (gate : FP → Bool)
    {visitor : FObj m → FObj m → Outcome (FObj m)}
    (hv : ∀ t d f, visitor t d = .ok f → SameObject t f) (hk : ∀ t d, t.isLeft = d.isLeft → (visitor t d).IsOk)
    (hx : ∀ t d, t.isLeft ≠ d.isLeft → (visitor t d).IsUb)
    {align : FObj m → Outcome (FObj m)} (hal : ∀ o o', align o = .ok o' → SameObject o o')
    {ds ds' ts' : List (FObj m)} (hds : (ds.map TrackOps.uuid).Nodup)
    (hbig : mgr.getAllTracks.length * ds.length < 2 ^ 64) (hnew : ∀ d ∈ ds, ¬ mgr.Managed (TrackOps.uuid d))
    (hd : List.Forall₂ (fun o o' => align o = .ok o' ∧ OrdinaryPrediction o o') ds ds')
    (ht : List.Forall₂ (fun o o' => align o = .ok o' ∧ OrdinaryPrediction o o') mgr.getAllTracks ts') :
    let metric := euclidMetric CtrvStateF.pose CtraStateF.pose
    let result := (period solve metric gate visitor makeTrack2 align ds mgr).2
    (result.IsUb ↔ AllGated metric gate ts' ds' ∨ AllZero metric gate ts' ds' ∨
      ∃ a, associateStep solve metric gate ts' ds' = .ok a ∧
        ∃ p ∈ associatedPairs a ts' ds', p.1.isLeft ≠ p.2.isLeft) ∧
    ((∃ b, ∀ o ∈ ts' ++ ds', o.isLeft = b) →
      (∃ t ∈ ts', ∃ d ∈ ds', Open metric gate t d ∧ metric t d ≠ some (.fin 0)) → result.IsOk) := by
  refine C128_euclid hr hn hs _ _ gate hv hk hx hal hds hbig hnew (hd.imp fun _ _ h => h.1) (ht.imp fun _ _ h => h.1)
    fun o ho => ?_
  obtain ⟨o', h⟩ : ∃ o', OrdinaryPrediction o' o := by
    rcases List.mem_append.1 ho with ho | ho
    · obtain ⟨o', -, h⟩ := forall₂_exists_left ht ho
      exact ⟨o', h.2⟩
    · obtain ⟨o', -, h⟩ := forall₂_exists_left hd ho
      exact ⟨o', h.2⟩
  obtain ⟨a, h1, h2⟩ := FiniteObj.pose (by norm_num) (C129_finite hm hm' h)
  exact ⟨a, h1, fun i => (h2 i).trans (by norm_num)⟩

/-! ### Examples -/

private theorem one_ordinary {n : ℕ} (hn : n ≤ 6) : OrdinaryCov (1 : Matrix (Fin n) (Fin n) ℚ) := by
  have h1 : ∀ i : Fin n, (1 : Matrix (Fin n) (Fin n) ℚ) i i = 1 := fun i => one_apply_eq i
  refine ⟨transpose_one, fun i => by rw [h1]; norm_num, fun i => by rw [h1]; norm_num, ?_⟩
  refine margin_of_correlations hn transpose_one (fun i => by rw [h1]; norm_num) fun i j hij => ?_
  rw [one_apply_ne hij, h1, h1]
  norm_num

private theorem one_llt {n : ℕ} {L : Matrix (Fin n) (Fin n) FP} {r : Option (Fin n)}
    (h : IsLltF (finite (1 : Matrix (Fin n) (Fin n) ℚ)) L r) : L = fun i j => if i = j then .fin 1 else .fin 0 := by
  rw [← diagonal_one] at h
  obtain ⟨h1, -⟩ := C122_diagonal (fun i => isFloat_nat (n := 1) (by norm_num)) (d := fun _ => 1) (by simpa using h)
  rw [h1]
  funext i j
  show FP.fin (diagonal _ i j) = _
  have e : binary32.sqrt 1 = 1 := by decide +kernel
  rw [diagonal_apply]
  split
  · rw [if_pos fun _ _ => by norm_num]
    exact congrArg FP.fin e
  · rfl

/-- A car at (10, 20) that drives 30 m/s and turns with 1/2 per second, everything known up to 1, is an ordinary object, whatever
the factor of the covariance that is computed. -/
theorem car_ordinary {m : Libm} {yaw : m.Ang} (hy : m.getAngle yaw = .fin (piD / 4))
    {o o' : DynObj (CtrvStateF m) (Matrix (Fin 5) (Fin 5) FP)} (h : o.state = exCtrv yaw) (hP : o.covariance = finite 1)
    {L : Matrix (Fin 5) (Fin 5) FP} {r : Option (Fin 5)} (hL : IsLltF o.covariance L r)
    (ht : IsTransformF (.fin 1) (.fin 2) (.fin 1) o.state L (.fin 2) o'.state o'.covariance) :
    OrdinaryPrediction (.inl o) (.inl o') := by
  refine .ctrv (z := ![10, 20, 30, piD / 4, 1 / 2]) (fun i => ?_) ⟨fun i hi => ?_, fun i hi => ?_, fun i hi => ?_⟩ isDouble_half hP
    (one_ordinary (by norm_num)) hL ?_ (by norm_num [abs_of_pos]) ht
  · rw [h]
    fin_cases i <;> first | rfl | exact hy
  · fin_cases i <;> first | (exfalso; revert hi; decide) | norm_num [abs_of_pos]
  · fin_cases i <;> first | (exfalso; revert hi; decide) | skip
    have h0 : (0 : ℚ) ≤ piD / 4 ∧ piD / 4 ≤ 1 := by decide +kernel
    have h1 : ((piD / 4 : ℚ) : ℝ) ≤ 1 := by exact_mod_cast h0.2
    have := Real.pi_gt_three
    exact ⟨h0.1, lt_of_le_of_lt h1 (by linarith)⟩
  · fin_cases i <;> first | (exfalso; revert hi; decide) | norm_num [abs_of_pos]
  · rw [hP] at hL
    rw [one_llt hL, h]
    have e : ((exCtrv yaw) :: sigmaPointsF (exCtrv yaw) (fun i j : Fin 5 => if i = j then .fin 1 else .fin 0) (.fin 2)).map
        (·.yawRate) = .fin (1 / 2) :: (List.finRange 5).flatMap fun j =>
          [FP.add binary64 (.fin (1 / 2)) (FP.conv binary64 (FP.mul binary32 (spreadF 5 (.fin 2)) (if 4 = j then .fin 1 else .fin 0))),
           FP.sub binary64 (.fin (1 / 2)) (FP.conv binary64 (FP.mul binary32 (spreadF 5 (.fin 2)) (if 4 = j then .fin 1 else .fin 0)))] := rfl
    rw [e]
    have key : ∀ w ∈ FP.fin (1 / 2) :: (List.finRange 5).flatMap fun j : Fin 5 =>
          [FP.add binary64 (.fin (1 / 2)) (FP.conv binary64 (FP.mul binary32 (spreadF 5 (.fin 2)) (if 4 = j then .fin 1 else .fin 0))),
           FP.sub binary64 (.fin (1 / 2)) (FP.conv binary64 (FP.mul binary32 (spreadF 5 (.fin 2)) (if 4 = j then .fin 1 else .fin 0)))],
        (match w with | .fin q => decide (1 / 2 ^ 60 ≤ |q|) | _ => true) = true := by decide +kernel
    intro q hq
    exact .inr (by simpa using key _ hq)

/-- `C129_finite`: so all that is predicted for it is finite. -/
example : ∃ (m : Libm) (yaw : m.Ang) (o o' : DynObj (CtrvStateF m) (Matrix (Fin 5) (Fin 5) FP)), o.state = exCtrv yaw ∧
    o.covariance = finite 1 ∧ OrdinaryPrediction (.inl o) (.inl o') ∧ FiniteObj (2 ^ 28) (.inl o' : FObj m) := by
  obtain ⟨m, yaw, hm, hm', hy, -⟩ := exists_libm
  obtain ⟨L, r, hL⟩ := C122_defined (finite (1 : Matrix (Fin 5) (Fin 5) ℚ))
  obtain ⟨s', P', h⟩ := C94_exists (.fin 1) (.fin 2) (.fin 1) (.fin 2) (exCtrv yaw) L
  have hp := car_ordinary (o := ⟨0, exCtrv yaw, finite 1, ⟨[1]⟩, .unknown⟩) (o' := ⟨2, s', P', ⟨[1]⟩, .unknown⟩) hy rfl rfl hL h
  exact ⟨m, yaw, _, _, rfl, rfl, hp, C129_finite hm hm' hp⟩

/-- likewise a truck on a straight line that accelerates -/
theorem truck_ordinary {m : Libm} {yaw : m.Ang} (hy : m.getAngle yaw = .fin (piD / 4))
    {o o' : DynObj (CtraStateF m) (Matrix (Fin 6) (Fin 6) FP)} (h : o.state = exCtra yaw) (hP : o.covariance = finite 1)
    {L : Matrix (Fin 6) (Fin 6) FP} {r : Option (Fin 6)} (hL : IsLltF o.covariance L r)
    (ht : IsTransformF (.fin 1) (.fin 2) (.fin 1) o.state L (.fin 2) o'.state o'.covariance) :
    OrdinaryPrediction (.inr o) (.inr o') := by
  refine .ctra (z := ![10, 20, 30, piD / 4, 0, 1]) (fun i => ?_) ⟨fun i hi => ?_, fun i hi => ?_, fun i hi => ?_⟩
    ⟨0, -1074, ⟨by norm_num, le_rfl, .inr rfl⟩, by simp⟩ hP (one_ordinary (by norm_num)) hL ?_ (by norm_num [abs_of_pos]) ht
  · rw [h]
    fin_cases i <;> first | rfl | exact hy
  · fin_cases i <;> first | (exfalso; revert hi; decide) | norm_num [abs_of_pos]
  · fin_cases i <;> first | (exfalso; revert hi; decide) | skip
    have h0 : (0 : ℚ) ≤ piD / 4 ∧ piD / 4 ≤ 1 := by decide +kernel
    have h1 : ((piD / 4 : ℚ) : ℝ) ≤ 1 := by exact_mod_cast h0.2
    have := Real.pi_gt_three
    exact ⟨h0.1, lt_of_le_of_lt h1 (by linarith)⟩
  · fin_cases i <;> first | (exfalso; revert hi; decide) | norm_num [abs_of_pos]
  · rw [hP] at hL
    rw [one_llt hL, h]
    have e : ((exCtra yaw) :: sigmaPointsF (exCtra yaw) (fun i j : Fin 6 => if i = j then .fin 1 else .fin 0) (.fin 2)).map
        (·.yawRate) = .fin 0 :: (List.finRange 6).flatMap fun j =>
          [FP.add binary64 (.fin 0) (FP.conv binary64 (FP.mul binary32 (spreadF 6 (.fin 2)) (if 4 = j then .fin 1 else .fin 0))),
           FP.sub binary64 (.fin 0) (FP.conv binary64 (FP.mul binary32 (spreadF 6 (.fin 2)) (if 4 = j then .fin 1 else .fin 0)))] := rfl
    rw [e]
    have key : ∀ w ∈ FP.fin 0 :: (List.finRange 6).flatMap fun j : Fin 6 =>
          [FP.add binary64 (.fin 0) (FP.conv binary64 (FP.mul binary32 (spreadF 6 (.fin 2)) (if 4 = j then .fin 1 else .fin 0))),
           FP.sub binary64 (.fin 0) (FP.conv binary64 (FP.mul binary32 (spreadF 6 (.fin 2)) (if 4 = j then .fin 1 else .fin 0)))],
        (match w with | .fin q => decide (q = 0 ∨ 1 / 2 ^ 14 ≤ |q|) | _ => true) = true := by decide +kernel
    intro q hq
    simpa using key _ hq

example : ∃ (m : Libm) (yaw : m.Ang) (o o' : DynObj (CtraStateF m) (Matrix (Fin 6) (Fin 6) FP)), o.state = exCtra yaw ∧
    o.covariance = finite 1 ∧ OrdinaryPrediction (.inr o) (.inr o') ∧ FiniteObj (2 ^ 28) (.inr o' : FObj m) := by
  obtain ⟨m, yaw, hm, hm', hy, -⟩ := exists_libm
  obtain ⟨L, r, hL⟩ := C122_defined (finite (1 : Matrix (Fin 6) (Fin 6) ℚ))
  obtain ⟨s', P', h⟩ := C94_exists (.fin 1) (.fin 2) (.fin 1) (.fin 2) (exCtra yaw) L
  have hp := truck_ordinary (o := ⟨0, exCtra yaw, finite 1, ⟨[1]⟩, .unknown⟩) (o' := ⟨2, s', P', ⟨[1]⟩, .unknown⟩) hy rfl rfl hL h
  exact ⟨m, yaw, _, _, rfl, rfl, hp, C129_finite hm hm' hp⟩

/-- the car with a UUID -/
def carObj {m : Libm} (yaw : m.Ang) (u : Fin 256) : FObj m := .inl ⟨0, exCtrv yaw, finite 1, ⟨[u]⟩, .unknown⟩

/-- `C129_period`: two reports of the car, nothing gated out.  Whatever solver, visitor and prediction by 2 s, the period is undefined
exactly if the predicted objects are at distance 0. -/
example : ∃ (m : Libm) (yaw : m.Ang), ∀ (solve : Solver), IsPermSolver solve →
    ∀ (visitor : FObj m → FObj m → Outcome (FObj m)) (align : FObj m → Outcome (FObj m)),
    (∀ t d f, visitor t d = .ok f → SameObject t f) → (∀ t d, t.isLeft = d.isLeft → (visitor t d).IsOk) →
    (∀ t d, t.isLeft ≠ d.isLeft → (visitor t d).IsUb) → (∀ o o', align o = .ok o' → SameObject o o') →
    ∀ (o₁ o₂ : DynObj (CtrvStateF m) (Matrix (Fin 5) (Fin 5) FP)) (L : Matrix (Fin 5) (Fin 5) FP) (r : Option (Fin 5)),
    IsLltF (finite 1) L r → align (carObj yaw 1) = .ok (.inl o₁) → align (carObj yaw 2) = .ok (.inl o₂) →
    IsTransformF (.fin 1) (.fin 2) (.fin 1) (exCtrv yaw) L (.fin 2) o₁.state o₁.covariance →
    IsTransformF (.fin 1) (.fin 2) (.fin 1) (exCtrv yaw) L (.fin 2) o₂.state o₂.covariance →
    ((period solve (euclidMetric CtrvStateF.pose CtraStateF.pose) (fun _ => false) visitor makeTrack2 align [carObj yaw 2]
      (addTentativeTrack (carObj yaw 1) (Manager.new 3 0)).1).2.IsUb ↔ euclidF o₁.state.pose o₂.state.pose = .fin 0) := by
  obtain ⟨m, yaw, hm, hm', hy, -⟩ := exists_libm
  refine ⟨m, yaw, fun solve hs visitor align hv hk hx hal o₁ o₂ L r hL a1 a2 t1 t2 => ?_⟩
  have hr : ReachableIn _ _ 0 (addTentativeTrack (carObj yaw 1) (Manager.new 3 0)).1 :=
    reachable_step (⟨3, 0, [], [], .nil (Reordered.refl _), rfl⟩ :
      ReachableIn _ _ 0 (Manager.new 3 0 : Manager (FObj m))) (.add (carObj yaw 1))
  have hmg : (addTentativeTrack (carObj yaw 1) (Manager.new 3 0)).1.getAllTracks = [carObj yaw 1] := rfl
  have p1 : OrdinaryPrediction (carObj yaw 1) (.inl o₁) := car_ordinary hy rfl rfl hL t1
  have p2 : OrdinaryPrediction (carObj yaw 2) (.inl o₂) := car_ordinary hy rfl rfl hL t2
  obtain ⟨h1, h2⟩ := C129_period hm hm' hr (by norm_num) hs (fun _ => false) hv hk hx hal (ds := [carObj yaw 2]) (by simp)
    (by rw [hmg]; simp) (by
      rintro d hd ⟨t, ht, hu⟩
      rw [hmg, List.mem_singleton] at ht
      rw [List.mem_singleton] at hd
      subst ht hd
      exact absurd hu (show (⟨[1]⟩ : Uuid) ≠ ⟨[2]⟩ by decide +kernel)) (.cons ⟨a2, p2⟩ .nil) (.cons ⟨a1, p1⟩ .nil)
  constructor
  · intro h
    by_contra hne
    have := h2 ⟨true, by
      intro o ho
      simp only [List.mem_append, List.mem_singleton] at ho
      rcases ho with rfl | rfl <;> rfl⟩
      ⟨_, List.mem_singleton.2 rfl, _, List.mem_singleton.2 rfl, ⟨_, rfl, rfl⟩, fun e => hne (Option.some.inj e)⟩
    rw [Outcome.isOk_iff] at this
    obtain ⟨a, ha⟩ := this
    rw [ha] at h
    simp at h
  · intro h
    refine h1.2 (.inr (.inl ?_))
    intro t ht d hd _ _
    rw [List.mem_singleton] at ht hd
    subst ht hd
    exact ⟨congrArg some h, rfl⟩

end Mot.Props
