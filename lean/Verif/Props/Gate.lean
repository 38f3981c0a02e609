import Verif.Props.CoversPosition
import Verif.Props.Distance
import Verif.Props.Identity
import Verif.Spec.Gate
/-!
# C131: how wide a gate must be, and how narrow
-/

namespace Mot.Props

open Mot Matrix Spec Real Manager

set_option exponentiation.threshold 2000

private theorem pose_le {p q : Fin 3 → ℝ} {B H : ℝ} (h1 : √((p 0 - q 0) ^ 2 + (p 1 - q 1) ^ 2) ≤ B)
    (h2 : (p 2 - q 2) ^ 2 ≤ H) : poseDistance p q ≤ √(B ^ 2 + H) := by
  rw [poseDistance_sq]
  apply Real.sqrt_le_sqrt
  have h3 : (p 0 - q 0) ^ 2 + (p 1 - q 1) ^ 2 ≤ B ^ 2 := by
    have := pow_le_pow_left₀ (Real.sqrt_nonneg _) h1 2
    rwa [Real.sq_sqrt (by positivity)] at this
  linarith

/-- the heading of the moved truth differs from the predicted one by no more than the covariance says,
as numbers -/
private theorem heading_le {k N V c r f a b : ℝ} (hkN : k ^ 2 ≤ N) (hV : 0 ≤ V) (hr : r = √(N * V)) (h0 : r ≤ c)
    (h1 : c + r ≤ yawCut) (ha : 0 ≤ a ∧ a < 2 * π) (hb : b = c) (hab : SameDir a (b + f))
    (hf : f ^ 2 ≤ k ^ 2 * V) : (a - b) ^ 2 ≤ k ^ 2 * V := by
  have hcut := yawCut_bounds
  have hpi := Real.pi_gt_three
  have hfr : |f| ≤ r := by
    rw [hr]
    exact Real.abs_le_sqrt (hf.trans (mul_le_mul_of_nonneg_right hkN hV))
  obtain ⟨hf1, hf2⟩ := abs_le.1 hfr
  have := SameDir.eq_of_range hab ha ⟨by linarith, by linarith⟩
  rw [this, add_sub_cancel_left]
  exact hf

private theorem posDef_heading {n : ℕ} {P : Matrix (Fin n) (Fin n) ℝ} (hP : P.PosDef) (i j : Fin n)
    (T : ℝ) : 0 ≤ P i i + 2 * T * P i j + T ^ 2 * P j j := by
  have h := hP.posSemidef.dotProduct_mulVec_nonneg (Pi.single i 1 + T • Pi.single j 1)
  have hs : P j i = P i j := hP.1.apply i j
  simp only [star_trivial, mulVec_add, mulVec_smul, add_dotProduct, smul_dotProduct, dotProduct_add, dotProduct_smul,
    single_one_dotProduct, mulVec_single_one, col_apply, smul_eq_mul, hs] at h
  linarith

/-- C131, for CTRV tracks: if the track is right to within `k` standard deviations, and no sigma point's heading
leaves the interval from 0 to 3.14159265359, the predicted pose is within `poseReach` of the pose of the object. -/
theorem C131_ctrv {chol : Chol} (hchol : IsLlt chol) {o p : DynObj CtrvState CtrvCov} (hP : o.covariance.PosDef)
    {α β κ time T c r k ρ V : ℝ} (hk0 : 0 ≤ k) (hT : T = time - o.timestamp)
    (hρ : ρ = √(5 / (α ^ 2 * (5 + β)))) (hkN : k ^ 2 ≤ α ^ 2 * (5 + β))
    (hc : SameDir c (o.state.yaw.getAngle + T * o.state.yawRate))
    (hV : V = headingVariance T (o.covariance 3 3) (o.covariance 3 4) (o.covariance 4 4))
    (hr : r = √(α ^ 2 * (5 + β) * V)) (h0 : r ≤ c) (h1 : c + r ≤ yawCut)
    (h : predict o time (unscentedTransform chol α β κ) = .ok p) {t : CtrvState} {e : Fin 5 → ℝ}
    (ht : SameUpToTurns t.toVec (o.state.toVec + e)) (hk : Covers o.covariance k .univ e) :
    p.state.euclid (t.next T) ≤ poseReach k (ctrvPositionReach k ρ T o.state.v o.covariance) V := by
  have hN : 0 < α ^ 2 * (5 + β) := (C42_defined_iff _ _ _ _ _ _ _).1 ⟨_, predict_ok h⟩
  have hr' : r = √(α ^ 2 * (5 + β) *
      (o.covariance 3 3 + 2 * T * o.covariance 3 4 + T ^ 2 * o.covariance 4 4)) := by
    rw [hr, hV, headingVariance]
  have hpos := C130_position_ctrv hchol hP hk0 hT hρ h ht hk
  obtain ⟨p', f, h', hf, hcov⟩ := C130_heading_ctrv hchol hP (κ := κ) hT hN hc hr' h0 h1 ht hk
  obtain ⟨p'', h'', hy, h33, -⟩ := C84_heading_ctrv hchol hP (κ := κ) hT hN hc hr' h0 h1
  cases h.symm.trans h'
  cases h.symm.trans h''
  have hV0 : 0 ≤ V := hV ▸ posDef_heading hP 3 4 T
  have hr0 : 0 ≤ r := hr ▸ Real.sqrt_nonneg _
  have hcut := yawCut_bounds
  have hpi := Real.pi_gt_three
  have hc' : p.state.yaw.getAngle = c := by
    rw [hy]
    exact Angle.getAngle_ofRad_of_range ⟨by linarith, by linarith⟩
  have hf3 : f 3 ^ 2 ≤ k ^ 2 * V := by
    have := hcov (Pi.single 3 1) fun j hj => Pi.single_eq_of_ne (fun h => hj (by simp [h])) _
    rw [hV, headingVariance, ← h33]
    simpa using this
  rw [(C55_ctrv_metric _ _ p.state).2.1]
  exact pose_le hpos (heading_le hkN hV0 hr h0 h1 (Angle.getAngle_range _) hc' (hf 3) hf3)

/-- C131, for CTRA tracks. -/
theorem C131_ctra {chol : Chol} (hchol : IsLlt chol) {o p : DynObj CtraState CtraCov} (hP : o.covariance.PosDef)
    {α β κ time T c r k ρ V : ℝ} (hk0 : 0 ≤ k) (hT : T = time - o.timestamp)
    (hρ : ρ = √(6 / (α ^ 2 * (6 + β)))) (hkN : k ^ 2 ≤ α ^ 2 * (6 + β))
    (hc : SameDir c (o.state.yaw.getAngle + T * o.state.yawRate))
    (hV : V = headingVariance T (o.covariance 3 3) (o.covariance 3 4) (o.covariance 4 4))
    (hr : r = √(α ^ 2 * (6 + β) * V)) (h0 : r ≤ c) (h1 : c + r ≤ yawCut)
    (h : predict o time (unscentedTransform chol α β κ) = .ok p) {t : CtraState} {e : Fin 6 → ℝ}
    (ht : SameUpToTurns t.toVec (o.state.toVec + e)) (hk : Covers o.covariance k .univ e) :
    p.state.euclid (t.next T) ≤
      poseReach k (ctraPositionReach k ρ T o.state.v o.state.a o.covariance) V := by
  have hN : 0 < α ^ 2 * (6 + β) := (C42_defined_iff _ _ _ _ _ _ _).1 ⟨_, predict_ok h⟩
  have hr' : r = √(α ^ 2 * (6 + β) *
      (o.covariance 3 3 + 2 * T * o.covariance 3 4 + T ^ 2 * o.covariance 4 4)) := by
    rw [hr, hV, headingVariance]
  have hpos := C130_position_ctra hchol hP hk0 hT hρ h ht hk
  obtain ⟨p', f, h', hf, hcov⟩ := C130_heading_ctra hchol hP (κ := κ) hT hN hc hr' h0 h1 ht hk
  obtain ⟨p'', h'', hy, h33, -⟩ := C84_heading_ctra hchol hP (κ := κ) hT hN hc hr' h0 h1
  cases h.symm.trans h'
  cases h.symm.trans h''
  have hV0 : 0 ≤ V := hV ▸ posDef_heading hP 3 4 T
  have hr0 : 0 ≤ r := hr ▸ Real.sqrt_nonneg _
  have hcut := yawCut_bounds
  have hpi := Real.pi_gt_three
  have hc' : p.state.yaw.getAngle = c := by
    rw [hy]
    exact Angle.getAngle_ofRad_of_range ⟨by linarith, by linarith⟩
  have hf3 : f 3 ^ 2 ≤ k ^ 2 * V := by
    have := hcov (Pi.single 3 1) fun j hj => Pi.single_eq_of_ne (fun h => hj (by simp [h])) _
    rw [hV, headingVariance, ← h33]
    simpa using this
  rw [(C55_ctra_metric _ _ p.state).2.1]
  exact pose_le hpos (heading_le hkN hV0 hr h0 h1 (Angle.getAngle_range _) hc' (hf 3) hf3)

/-- the heading of the moved truth, in terms of the expected heading `c` -/
private theorem moved_heading {a : Angle} {s w e e' c dt : ℝ} (ha : SameDir a.getAngle (s + e))
    (hc : SameDir c (s + dt * w)) :
    SameDir (a.add (Angle.ofRad ((w + e') * dt))).getAngle (c + (e + dt * e')) := by
  refine (next_yaw_sameDir a (w + e') dt ha).trans ?_
  have := (hc.add (SameDir.refl (e + dt * e'))).symm
  rwa [show s + dt * w + (e + dt * e') = s + e + dt * (w + e') by ring] at this

private theorem heading_high_le {k N V c r f a b : ℝ} (hk0 : 0 ≤ k) (hkN : k ^ 2 ≤ N) (hV : 0 ≤ V)
    (hr : r = √(N * V)) (h0 : yawCut + r < c) (h1 : c + r < 2 * π) (ha : 0 ≤ a ∧ a < 2 * π)
    (hb : |b - c| < 2 / 10 ^ 12) (hab : SameDir a (c + f)) (hf : f ^ 2 ≤ k ^ 2 * V) :
    (a - b) ^ 2 ≤ (k * √V + 2 / 10 ^ 12) ^ 2 := by
  have hcut := yawCut_bounds
  have hpi := Real.pi_gt_three
  have hfr : |f| ≤ r := by
    rw [hr]
    exact Real.abs_le_sqrt (hf.trans (mul_le_mul_of_nonneg_right hkN hV))
  have hfk : |f| ≤ k * √V := by
    have := Real.abs_le_sqrt hf
    rwa [Real.sqrt_mul (sq_nonneg k), Real.sqrt_sq hk0] at this
  obtain ⟨hf1, hf2⟩ := abs_le.1 hfr
  have hac := SameDir.eq_of_range hab ha ⟨by linarith, by linarith⟩
  have hV' : 0 ≤ k * √V := by positivity
  rw [← sq_abs]
  apply pow_le_pow_left₀ (abs_nonneg _)
  rw [hac, show c + f - b = f - (b - c) by ring]
  exact (abs_sub _ _).trans (by linarith)

private theorem covers_heading {n : ℕ} {P : Matrix (Fin n) (Fin n) ℝ} (hP : P.PosDef) {k : ℝ} {e : Fin n → ℝ}
    (hk : Covers P k .univ e) (i j : Fin n) (T : ℝ) :
    (e i + T * e j) ^ 2 ≤ k ^ 2 * (P i i + 2 * T * P i j + T ^ 2 * P j j) := by
  have h := hk (Pi.single i 1 + T • Pi.single j 1) fun j hj => (hj trivial).elim
  have hs : P j i = P i j := hP.1.apply i j
  simp only [mulVec_add, mulVec_smul, add_dotProduct, smul_dotProduct, dotProduct_add, dotProduct_smul,
    single_one_dotProduct, mulVec_single_one, col_apply, smul_eq_mul, hs] at h
  refine h.trans (le_of_eq ?_)
  ring

/-- C131, for CTRV tracks whose sigma points have headings between 3.14159265359 and a full turn: the heading can
be off by 2·10⁻¹² more. -/
theorem C131_high_ctrv {chol : Chol} (hchol : IsLlt chol) {o p : DynObj CtrvState CtrvCov} (hP : o.covariance.PosDef)
    {α β κ time T c r k ρ V : ℝ} (hk0 : 0 ≤ k) (hT : T = time - o.timestamp)
    (hρ : ρ = √(5 / (α ^ 2 * (5 + β)))) (hkN : k ^ 2 ≤ α ^ 2 * (5 + β))
    (hc : SameDir c (o.state.yaw.getAngle + T * o.state.yawRate))
    (hV : V = headingVariance T (o.covariance 3 3) (o.covariance 3 4) (o.covariance 4 4))
    (hr : r = √(α ^ 2 * (5 + β) * V)) (h0 : yawCut + r < c) (h1 : c + r < 2 * π)
    (h : predict o time (unscentedTransform chol α β κ) = .ok p) {t : CtrvState} {e : Fin 5 → ℝ}
    (ht : SameUpToTurns t.toVec (o.state.toVec + e)) (hk : Covers o.covariance k .univ e) :
    p.state.euclid (t.next T) ≤
      poseReachHigh k (ctrvPositionReach k ρ T o.state.v o.covariance) V := by
  have hN : 0 < α ^ 2 * (5 + β) := (C42_defined_iff _ _ _ _ _ _ _).1 ⟨_, predict_ok h⟩
  have hr' : r = √(α ^ 2 * (5 + β) *
      (o.covariance 3 3 + 2 * T * o.covariance 3 4 + T ^ 2 * o.covariance 4 4)) := by
    rw [hr, hV, headingVariance]
  have hpos := C130_position_ctrv hchol hP hk0 hT hρ h ht hk
  obtain ⟨p'', h'', hy, -⟩ := C84_heading_high_ctrv hchol hP (κ := κ) hT hN hc hr' h0 h1
  cases h.symm.trans h''
  have hV0 : 0 ≤ V := hV ▸ posDef_heading hP 3 4 T
  have hf := covers_heading hP hk 3 4 T
  have t3 : SameDir t.yaw.getAngle (o.state.yaw.getAngle + e 3) := ht 3
  have t4 : t.yawRate = o.state.yawRate + e 4 := ht 4
  have hd : SameDir (t.next T).yaw.getAngle (c + (e 3 + T * e 4)) := by
    show SameDir (t.yaw.add (Angle.ofRad (t.yawRate * T))).getAngle _
    rw [t4]
    exact moved_heading t3 hc
  rw [(C55_ctrv_metric _ _ p.state).2.1]
  refine pose_le hpos (heading_high_le hk0 hkN hV0 hr h0 h1 (Angle.getAngle_range _) hy hd ?_)
  rw [hV, headingVariance]
  exact hf

/-- C131, for CTRA tracks whose sigma points have headings between 3.14159265359 and a full turn: the heading can
be off by 2·10⁻¹² more. -/
theorem C131_high_ctra {chol : Chol} (hchol : IsLlt chol) {o p : DynObj CtraState CtraCov} (hP : o.covariance.PosDef)
    {α β κ time T c r k ρ V : ℝ} (hk0 : 0 ≤ k) (hT : T = time - o.timestamp)
    (hρ : ρ = √(6 / (α ^ 2 * (6 + β)))) (hkN : k ^ 2 ≤ α ^ 2 * (6 + β))
    (hc : SameDir c (o.state.yaw.getAngle + T * o.state.yawRate))
    (hV : V = headingVariance T (o.covariance 3 3) (o.covariance 3 4) (o.covariance 4 4))
    (hr : r = √(α ^ 2 * (6 + β) * V)) (h0 : yawCut + r < c) (h1 : c + r < 2 * π)
    (h : predict o time (unscentedTransform chol α β κ) = .ok p) {t : CtraState} {e : Fin 6 → ℝ}
    (ht : SameUpToTurns t.toVec (o.state.toVec + e)) (hk : Covers o.covariance k .univ e) :
    p.state.euclid (t.next T) ≤
      poseReachHigh k (ctraPositionReach k ρ T o.state.v o.state.a o.covariance) V := by
  have hN : 0 < α ^ 2 * (6 + β) := (C42_defined_iff _ _ _ _ _ _ _).1 ⟨_, predict_ok h⟩
  have hr' : r = √(α ^ 2 * (6 + β) *
      (o.covariance 3 3 + 2 * T * o.covariance 3 4 + T ^ 2 * o.covariance 4 4)) := by
    rw [hr, hV, headingVariance]
  have hpos := C130_position_ctra hchol hP hk0 hT hρ h ht hk
  obtain ⟨p'', h'', hy, -⟩ := C84_heading_high_ctra hchol hP (κ := κ) hT hN hc hr' h0 h1
  cases h.symm.trans h''
  have hV0 : 0 ≤ V := hV ▸ posDef_heading hP 3 4 T
  have hf := covers_heading hP hk 3 4 T
  have t3 : SameDir t.yaw.getAngle (o.state.yaw.getAngle + e 3) := ht 3
  have t4 : t.yawRate = o.state.yawRate + e 4 := ht 4
  have hd : SameDir (t.next T).yaw.getAngle (c + (e 3 + T * e 4)) := by
    show SameDir (t.yaw.add (Angle.ofRad (t.yawRate * T))).getAngle _
    rw [t4]
    exact moved_heading t3 hc
  rw [(C55_ctra_metric _ _ p.state).2.1]
  refine pose_le hpos (heading_high_le hk0 hkN hV0 hr h0 h1 (Angle.getAngle_range _) hy hd ?_)
  rw [hV, headingVariance]
  exact hf

private theorem predict2_inl {o : DynObj CtrvState CtrvCov} {time : ℝ} {p₁ : Propagator CtrvState CtrvCov}
    {p₂ : Propagator CtraState CtraCov} {o' : MotObj} (h : predict2 (.inl o) time p₁ p₂ = .ok o') :
    ∃ p, o' = .inl p ∧ predict o time p₁ = .ok p ∧ p.uuid = o.uuid := by
  rw [predict2, propagate2] at h
  rw [predict]
  have hu : (propagate time p₁ o).1.uuid = o.uuid := by
    unfold propagate
    split <;> rfl
  rcases hx : propagate time p₁ o with ⟨q, r⟩
  rw [hx] at h hu
  rcases r with ⟨⟩ | _ | _
  · cases h
    exact ⟨q, rfl, rfl, hu⟩
  · cases h
  · cases h

private theorem predict2_inr {o : DynObj CtraState CtraCov} {time : ℝ} {p₁ : Propagator CtrvState CtrvCov}
    {p₂ : Propagator CtraState CtraCov} {o' : MotObj} (h : predict2 (.inr o) time p₁ p₂ = .ok o') :
    ∃ p, o' = .inr p ∧ predict o time p₂ = .ok p ∧ p.uuid = o.uuid := by
  rw [predict2, propagate2] at h
  rw [predict]
  have hu : (propagate time p₂ o).1.uuid = o.uuid := by
    unfold propagate
    split <;> rfl
  rcases hx : propagate time p₂ o with ⟨q, r⟩
  rw [hx] at h hu
  rcases r with ⟨⟩ | _ | _
  · cases h
    exact ⟨q, rfl, rfl, hu⟩
  · cases h
  · cases h

/-- C131: the predicted track is within `R` of the object it follows. -/
theorem C131_follows {chol : Chol} (hchol : IsLlt chol) {α β κ k time R : ℝ} (hk0 : 0 ≤ k) {o o' : MotObj}
    {w : Fin 3 → ℝ} (hw : Follows α β k time R o w)
    (h : predict2 o time (unscentedTransform chol α β κ) (unscentedTransform chol α β κ) = .ok o') :
    poseGap (objPose o') w ≤ R ∧ TrackOps.uuid o' = TrackOps.uuid o ∧ o'.isLeft = o.isLeft := by
  cases hw with
  | ctrv hT hP ht hk hkN hc hV h0 h1 hR =>
    obtain ⟨p, rfl, hp, hu⟩ := predict2_inl h
    refine ⟨le_trans (le_of_eq ?_) ((C131_ctrv hchol hP hk0 hT rfl hkN hc hV rfl h0 h1 hp ht hk).trans hR), hu, rfl⟩
    rw [(C55_ctrv_metric _ _ p.state).2.2.2]
    rfl
  | ctra hT hP ht hk hkN hc hV h0 h1 hR =>
    obtain ⟨p, rfl, hp, hu⟩ := predict2_inr h
    refine ⟨le_trans (le_of_eq ?_) ((C131_ctra hchol hP hk0 hT rfl hkN hc hV rfl h0 h1 hp ht hk).trans hR), hu, rfl⟩
    rw [(C55_ctra_metric _ _ p.state).2.2.2]
    rfl
  | ctrvHigh hT hP ht hk hkN hc hV h0 h1 hR =>
    obtain ⟨p, rfl, hp, hu⟩ := predict2_inl h
    refine ⟨le_trans (le_of_eq ?_) ((C131_high_ctrv hchol hP hk0 hT rfl hkN hc hV rfl h0 h1 hp ht hk).trans hR), hu, rfl⟩
    rw [(C55_ctrv_metric _ _ p.state).2.2.2]
    rfl
  | ctraHigh hT hP ht hk hkN hc hV h0 h1 hR =>
    obtain ⟨p, rfl, hp, hu⟩ := predict2_inr h
    refine ⟨le_trans (le_of_eq ?_) ((C131_high_ctra hchol hP hk0 hT rfl hkN hc hV rfl h0 h1 hp ht hk).trans hR), hu, rfl⟩
    rw [(C55_ctra_metric _ _ p.state).2.2.2]
    rfl

private theorem forall₂_right {a b : Type} {r : a → b → Prop} {l : List a} {l' : List b} (h : List.Forall₂ r l l') :
    ∀ y ∈ l', ∃ x ∈ l, r x y := by
  induction h with
  | nil => simp
  | cons h _ ih =>
    intro y hy
    rcases List.mem_cons.1 hy with rfl | hy
    · exact ⟨_, List.mem_cons_self, h⟩
    · obtain ⟨x, hx, hr⟩ := ih y hy
      exact ⟨x, List.mem_cons_of_mem _ hx, hr⟩

private theorem forall₂_map {a b : Type} {r : a → a → Prop} {f : a → b} {l l' : List a} (h : List.Forall₂ r l l')
    (hf : ∀ x y, x ∈ l → r x y → f x = f y) : l.map f = l'.map f := by
  induction h with
  | nil => rfl
  | cons h _ ih =>
    rw [List.map_cons, List.map_cons, hf _ _ List.mem_cons_self h,
      ih fun x y hx => hf x y (List.mem_cons_of_mem _ hx)]

private theorem poseGap_eq (p q : Fin 3 → ℝ) : poseGap p q = poseDistance p q := (poseDistance_sq p q).symm

/-- C131: tracks that are right to within `k` standard deviations, detections that are at most `ε` from the objects
they show, objects that are at least `D` apart, and a gate between the two distances these allow.  Then the scores
tell the objects apart in the sense of C102.  `rd` is the rounding of the distance; it is right up to a fraction `u`.
There are two tracks with detections, or one that is not exactly where its detection is (`hdef`). -/
theorem C131_apart {ι : Type} {chol : Chol} (hchol : IsLlt chol) {α β κ k time R ε D u : ℝ} (hk0 : 0 ≤ k)
    {label : Uuid → ι} {world : ι → Fin 3 → ℝ} {ts ts' ds : List MotObj}
    (hpred : List.Forall₂ (fun o o' => predict2 o time (unscentedTransform chol α β κ)
      (unscentedTransform chol α β κ) = .ok o') ts ts')
    (hts : ∀ o ∈ ts, Follows α β k time R o (world (label (TrackOps.uuid o))))
    (hds : ∀ d ∈ ds, poseGap (objPose d) (world (label (TrackOps.uuid d))) ≤ ε)
    (hkind : ∀ o ∈ ts, ∀ d ∈ ds, label (TrackOps.uuid o) = label (TrackOps.uuid d) → o.isLeft = d.isLeft)
    (hapart : ∀ o ∈ ts, ∀ d ∈ ds, label (TrackOps.uuid o) ≠ label (TrackOps.uuid d) →
      D ≤ poseGap (world (label (TrackOps.uuid o))) (world (label (TrackOps.uuid d))))
    {rd : ℝ → FP} {gate : FP → Bool} {g : ℚ} (hu : 0 ≤ u) (hu1 : u < 1)
    (hrd : ∀ x, 0 ≤ x → (∃ q, rd x = .fin q ∧ Near u x q) ∨ (R + ε < x ∧ gate (rd x) = true))
    (hg : ∀ q, gate (.fin q) = decide (g < q)) (hg31 : g ≤ 10 ^ 31)
    (hgR : (R + ε) * (1 + u) ≤ g) (hgD : g < (D - (R + ε)) * (1 - u))
    (hdef : (∃ t ∈ ts, ∃ d ∈ ds, ∃ t' ∈ ts, ∃ d' ∈ ds, label (TrackOps.uuid t) = label (TrackOps.uuid d) ∧
        label (TrackOps.uuid t') = label (TrackOps.uuid d') ∧ label (TrackOps.uuid t') ≠ label (TrackOps.uuid t)) ∨
      ∃ t ∈ ts', ∃ d ∈ ds, label (TrackOps.uuid t) = label (TrackOps.uuid d) ∧ objPose t ≠ objPose d) :
    Apart label (euclideanScore (fun s t => rd (s.euclid t)) fun s t => rd (s.euclid t)) gate ts' ds := by
  have key : ∀ {t t' : MotObj}, t ∈ ts → predict2 t time (unscentedTransform chol α β κ)
      (unscentedTransform chol α β κ) = .ok t' → poseGap (objPose t') (world (label (TrackOps.uuid t'))) ≤ R ∧
        TrackOps.uuid t' = TrackOps.uuid t ∧ t'.isLeft = t.isLeft := by
    intro t t' ht h
    obtain ⟨h1, h2, h3⟩ := C131_follows hchol hk0 (hts t ht) h
    exact ⟨h2 ▸ h1, h2, h3⟩
  have hback : ∀ t' ∈ ts', ∃ t ∈ ts, predict2 t time (unscentedTransform chol α β κ)
      (unscentedTransform chol α β κ) = .ok t' := forall₂_right hpred
  have hfwd : ∀ t ∈ ts, ∃ t' ∈ ts', predict2 t time (unscentedTransform chol α β κ)
      (unscentedTransform chol α β κ) = .ok t' := forall₂_right hpred.flip
  -- the distance between a predicted track and a detection
  have hnear : ∀ t' ∈ ts', ∀ d ∈ ds, label (TrackOps.uuid t') = label (TrackOps.uuid d) →
      poseGap (objPose t') (objPose d) ≤ R + ε ∧ t'.isLeft = d.isLeft := by
    intro t' ht' d hd hl
    obtain ⟨t, ht, h⟩ := hback t' ht'
    obtain ⟨h1, h2, h3⟩ := key ht h
    refine ⟨?_, h3.trans (hkind t ht d hd (h2 ▸ hl))⟩
    have h4 := hds d hd
    rw [hl] at h1
    rw [poseGap_eq] at *
    rw [poseDistance_comm] at h4
    linarith [poseDistance_triangle (objPose t') (world (label (TrackOps.uuid d))) (objPose d)]
  have hfar : ∀ t' ∈ ts', ∀ d ∈ ds, label (TrackOps.uuid t') ≠ label (TrackOps.uuid d) →
      D - (R + ε) ≤ poseGap (objPose t') (objPose d) := by
    intro t' ht' d hd hl
    obtain ⟨t, ht, h⟩ := hback t' ht'
    obtain ⟨h1, h2, h3⟩ := key ht h
    have h4 := hds d hd
    have h5 := hapart t ht d hd (h2 ▸ hl)
    rw [← h2] at h5
    rw [poseGap_eq] at *
    rw [poseDistance_comm] at h1
    have h6 := poseDistance_triangle (world (label (TrackOps.uuid t'))) (objPose t') (world (label (TrackOps.uuid d)))
    have h7 := poseDistance_triangle (objPose t') (objPose d) (world (label (TrackOps.uuid d)))
    linarith
  set metric : MotObj → MotObj → Option FP :=
    euclideanScore (fun s t => rd (s.euclid t)) fun s t => rd (s.euclid t) with hmetric
  have hsame : ∀ t d : MotObj, t.isLeft = d.isLeft → metric t d = some (rd (poseGap (objPose t) (objPose d))) := by
    intro t d hk
    rw [poseGap_eq]
    rcases t with t | t <;> rcases d with d | d <;> first | rfl | cases hk
  have hdiff : ∀ t d : MotObj, t.isLeft ≠ d.isLeft → metric t d = none := by
    intro t d hk
    rcases t with t | t <;> rcases d with d | d <;> first | rfl | exact absurd rfl hk
  have hsv : ∀ t d : MotObj, ∀ s, Survives metric gate t d s →
      ∃ q, s = .fin q ∧ 0 ≤ q ∧ q ≤ g ∧ |(q : ℝ) - poseGap (objPose t) (objPose d)| ≤
        u * poseGap (objPose t) (objPose d) := by
    rintro t d s ⟨h1, h2⟩
    by_cases hk : t.isLeft = d.isLeft
    · rw [hsame t d hk] at h1
      cases h1
      rcases hrd (poseGap (objPose t) (objPose d)) (Real.sqrt_nonneg _) with ⟨q, hq, hq0, hq1⟩ | ⟨-, h⟩
      · rw [hq, hg, decide_eq_false_iff_not, not_lt] at h2
        exact ⟨q, hq, hq0, h2, hq1⟩
      · rw [h] at h2; cases h2
    · rw [hdiff t d hk] at h1
      cases h1
  have hown : ∀ t ∈ ts', ∀ d ∈ ds, label (TrackOps.uuid t) = label (TrackOps.uuid d) →
      ∃ q : ℚ, Survives metric gate t d (.fin q) := by
    intro t ht d hd hl
    obtain ⟨hle, hk⟩ := hnear t ht d hd hl
    have hx0 : 0 ≤ poseGap (objPose t) (objPose d) := Real.sqrt_nonneg _
    rcases hrd _ hx0 with ⟨q, hq, hq0, hq1⟩ | ⟨h, -⟩
    · refine ⟨q, by rw [hsame t d hk, hq], ?_⟩
      rw [hg, decide_eq_false_iff_not, not_lt]
      have h1 := (abs_le.1 hq1).2
      have h2 := mul_le_mul_of_nonneg_right hle (show 0 ≤ 1 + u by linarith)
      have : (q : ℝ) ≤ g := by linarith
      exact_mod_cast this
    · exact absurd hle (not_le.2 h)
  refine .inl ⟨?_, ?_, ?_⟩
  · intro t ht d hd
    constructor
    · rintro ⟨s, h⟩
      by_contra hl
      obtain ⟨q, rfl, -, hqg, hq1⟩ := hsv t d s h
      have h1 := (abs_le.1 hq1).1
      have h2 := mul_le_mul_of_nonneg_right (hfar t ht d hd hl) (show 0 ≤ 1 - u by linarith)
      have h3 : (q : ℝ) ≤ g := by exact_mod_cast hqg
      linarith
    · intro hl
      obtain ⟨q, hq⟩ := hown t ht d hd hl
      exact ⟨_, hq⟩
  · intro t _ d _ s h
    obtain ⟨q, rfl, h0, hq, -⟩ := hsv t d s h
    exact ⟨q, rfl, h0, hq.trans hg31⟩
  · rcases hdef with ⟨t₁, ht₁, d₁, hd₁, t₂, ht₂, d₂, hd₂, hl₁, hl₂, hne⟩ | ⟨t, ht, d, hd, hl, hne⟩
    swap
    · obtain ⟨q, hq⟩ := hown t ht d hd hl
      obtain ⟨q', hq', -, -, hq1⟩ := hsv t d _ hq
      cases hq'
      refine ⟨t, ht, d, hd, q, hq, .inl ?_⟩
      have hx : 0 < poseGap (objPose t) (objPose d) :=
        lt_of_le_of_ne (Real.sqrt_nonneg _) fun h => hne (poseDistance_eq_zero.1 ((poseGap_eq _ _).symm.trans h.symm))
      have h1 := (abs_le.1 hq1).1
      have h2 := mul_lt_mul_of_pos_right hu1 hx
      have : (0 : ℝ) < q := by linarith
      exact_mod_cast this
    obtain ⟨t₁', ht₁', hp₁⟩ := hfwd t₁ ht₁
    obtain ⟨t₂', ht₂', hp₂⟩ := hfwd t₂ ht₂
    have hu₁ := (key ht₁ hp₁).2.1
    have hu₂ := (key ht₂ hp₂).2.1
    obtain ⟨q, hq⟩ := hown t₁' ht₁' d₁ hd₁ (by rw [hu₁]; exact hl₁)
    exact ⟨t₁', ht₁', d₁, hd₁, q, hq, .inr ⟨t₂', ht₂', d₂, hd₂, by rw [hu₂]; exact hl₂,
      by rw [hu₁, hu₂]; exact hne⟩⟩

/-- C131: tracks that are right to within `k` standard deviations, detections that are at most `ε` from the objects
they show, objects that are at least `D` apart, and a gate between the two distances these allow.  Then the
predicted tracks are associated with the detections of their objects and with no others.  `rd` is the rounding of
the distance; it is right up to a fraction `u`.  There are two tracks with detections, or one that is not exactly
where its detection is (`hdef`). -/
theorem C131_association {ι : Type} {chol : Chol} (hchol : IsLlt chol) {α β κ k time R ε D u : ℝ} (hk0 : 0 ≤ k)
    {label : Uuid → ι} {world : ι → Fin 3 → ℝ} {ts ts' ds : List MotObj}
    (hpred : List.Forall₂ (fun o o' => predict2 o time (unscentedTransform chol α β κ)
      (unscentedTransform chol α β κ) = .ok o') ts ts')
    (hts : ∀ o ∈ ts, Follows α β k time R o (world (label (TrackOps.uuid o))))
    (hds : ∀ d ∈ ds, poseGap (objPose d) (world (label (TrackOps.uuid d))) ≤ ε)
    (hkind : ∀ o ∈ ts, ∀ d ∈ ds, label (TrackOps.uuid o) = label (TrackOps.uuid d) → o.isLeft = d.isLeft)
    (hapart : ∀ o ∈ ts, ∀ d ∈ ds, label (TrackOps.uuid o) ≠ label (TrackOps.uuid d) →
      D ≤ poseGap (world (label (TrackOps.uuid o))) (world (label (TrackOps.uuid d))))
    {rd : ℝ → FP} {gate : FP → Bool} {g : ℚ} (hu : 0 ≤ u) (hu1 : u < 1)
    (hrd : ∀ x, 0 ≤ x → (∃ q, rd x = .fin q ∧ Near u x q) ∨ (R + ε < x ∧ gate (rd x) = true))
    (hg : ∀ q, gate (.fin q) = decide (g < q)) (hg31 : g ≤ 10 ^ 31)
    (hgR : (R + ε) * (1 + u) ≤ g) (hgD : g < (D - (R + ε)) * (1 - u))
    (hT : (ts.map fun x => label (TrackOps.uuid x)).Nodup) (hD : (ds.map fun x => label (TrackOps.uuid x)).Nodup)
    (hdef : (∃ t ∈ ts, ∃ d ∈ ds, ∃ t' ∈ ts, ∃ d' ∈ ds, label (TrackOps.uuid t) = label (TrackOps.uuid d) ∧
        label (TrackOps.uuid t') = label (TrackOps.uuid d') ∧ label (TrackOps.uuid t') ≠ label (TrackOps.uuid t)) ∨
      ∃ t ∈ ts', ∃ d ∈ ds, label (TrackOps.uuid t) = label (TrackOps.uuid d) ∧ objPose t ≠ objPose d)
    (hbig : ts.length * ds.length < 2 ^ 64) {solve : Solver} (hs : IsOptimalSolver solve) :
    ∃ a, associateStep solve (euclideanScore (fun s t => rd (s.euclid t)) fun s t => rd (s.euclid t)) gate ts' ds =
        .ok a ∧
      (∀ u v, a.find? u = some [v] ↔ ∃ t ∈ ts, ∃ d ∈ ds,
        TrackOps.uuid t = u ∧ TrackOps.uuid d = v ∧ label u = label v) ∧
      ∀ u l, a.find? u = some l → ∃ v, l = [v] := by
  have key : ∀ {t t' : MotObj}, t ∈ ts → predict2 t time (unscentedTransform chol α β κ)
      (unscentedTransform chol α β κ) = .ok t' → TrackOps.uuid t' = TrackOps.uuid t :=
    fun ht h => (C131_follows hchol hk0 (hts _ ht) h).2.1
  have hmap : ts'.map (fun x => label (TrackOps.uuid x)) = ts.map fun x => label (TrackOps.uuid x) := by
    refine (forall₂_map (f := fun x => label (TrackOps.uuid x)) hpred fun t t' ht h => ?_).symm
    rw [key ht h]
  have hap := C131_apart hchol hk0 hpred hts hds hkind hapart hu hu1 hrd hg hg31 hgR hgD hdef
  obtain ⟨a, ha, h1, h2⟩ := C102_association (by rw [hmap]; exact hT) hD (by rw [← hpred.length_eq]; exact hbig) hs hap
  refine ⟨a, ha, fun u v => (h1 u v).trans ⟨?_, ?_⟩, h2⟩
  · rintro ⟨t', ht', d, hd, hu, hv⟩
    obtain ⟨t, ht, h⟩ := forall₂_right hpred t' ht'
    exact ⟨t, ht, d, hd, key ht h ▸ hu, hv⟩
  · rintro ⟨t, ht, d, hd, hu, hv⟩
    obtain ⟨t', ht', h⟩ := forall₂_right hpred.flip t ht
    exact ⟨t', ht', d, hd, (key ht h).trans hu, hv⟩

theorem predict2_same {o o' : MotObj} {time : ℝ} {p₁ : Propagator CtrvState CtrvCov}
    {p₂ : Propagator CtraState CtraCov} (h : predict2 o time p₁ p₂ = .ok o') : SameObject o o' := by
  have hc : ∀ {S C : Type} (prop : Propagator S C) (o : DynObj S C),
      (propagate time prop o).1.uuid = o.uuid ∧ (propagate time prop o).1.semanticClass = o.semanticClass := by
    intro S C prop o
    unfold propagate
    split <;> exact ⟨rfl, rfl⟩
  rcases o with o | o
  · rw [predict2, propagate2] at h
    have := hc p₁ o
    rcases hx : propagate time p₁ o with ⟨q, ⟨⟩ | _ | _⟩ <;> rw [hx] at h this <;> cases h
    exact ⟨this.1, this.2, rfl⟩
  · rw [predict2, propagate2] at h
    have := hc p₂ o
    rcases hx : propagate time p₂ o with ⟨q, ⟨⟩ | _ | _⟩ <;> rw [hx] at h this <;> cases h
    exact ⟨this.1, this.2, rfl⟩

/-- C131, for a whole period, in which tracks and detections are predicted: if both are right to within some numbers
of standard deviations (`k` and `k'`) and the gate is chosen as above, the period completes, and what it does with an
object is what a tracker for that object alone would do.  `Shows`, `Only` and `SoloStep` are those of C102. -/
theorem C131_period {ι : Type} {chol : Chol} (hchol : IsLlt chol) {α β κ k k' time R ε D u : ℝ} (hk0 : 0 ≤ k)
    (hk0' : 0 ≤ k') {label : Uuid → ι} {world : ι → Fin 3 → ℝ} {n : ℕ} {m : Manager MotObj} (hr : ReachableIn _ _ n m)
    (hn : n + 3 < 2 ^ 64) {ds ts' ds' : List MotObj}
    (ht : List.Forall₂ (fun o o' => predict2 o time (unscentedTransform chol α β κ)
      (unscentedTransform chol α β κ) = .ok o') m.getAllTracks ts')
    (hd : List.Forall₂ (fun o o' => predict2 o time (unscentedTransform chol α β κ)
      (unscentedTransform chol α β κ) = .ok o') ds ds')
    (hts : ∀ o ∈ m.getAllTracks, Follows α β k time R o (world (label (TrackOps.uuid o))))
    (hds : ∀ d ∈ ds, Follows α β k' time ε d (world (label (TrackOps.uuid d))))
    (hkind : ∀ o ∈ m.getAllTracks, ∀ d ∈ ds, label (TrackOps.uuid o) = label (TrackOps.uuid d) → o.isLeft = d.isLeft)
    (hapart : ∀ o ∈ m.getAllTracks, ∀ d ∈ ds, label (TrackOps.uuid o) ≠ label (TrackOps.uuid d) →
      D ≤ poseGap (world (label (TrackOps.uuid o))) (world (label (TrackOps.uuid d))))
    {rd : ℝ → FP} {gate : FP → Bool} {g : ℚ} (hu : 0 ≤ u) (hu1 : u < 1)
    (hrd : ∀ x, 0 ≤ x → (∃ q, rd x = .fin q ∧ Near u x q) ∨ (R + ε < x ∧ gate (rd x) = true))
    (hg : ∀ q, gate (.fin q) = decide (g < q)) (hg31 : g ≤ 10 ^ 31)
    (hgR : (R + ε) * (1 + u) ≤ g) (hgD : g < (D - (R + ε)) * (1 - u))
    (hone : ∀ o, ∃ x, Only m.getAllTracks label o x) (hD : (ds.map fun x => label (TrackOps.uuid x)).Nodup)
    (hdef : (∃ t ∈ m.getAllTracks, ∃ d ∈ ds, ∃ t' ∈ m.getAllTracks, ∃ d' ∈ ds,
        label (TrackOps.uuid t) = label (TrackOps.uuid d) ∧
        label (TrackOps.uuid t') = label (TrackOps.uuid d') ∧ label (TrackOps.uuid t') ≠ label (TrackOps.uuid t)) ∨
      ∃ t ∈ ts', ∃ d ∈ ds', label (TrackOps.uuid t) = label (TrackOps.uuid d) ∧ objPose t ≠ objPose d)
    (hbig : m.getAllTracks.length * ds.length < 2 ^ 64) {solve : Solver} (hs : IsOptimalSolver solve)
    (hf : ∀ t ∈ ts', ∀ d ∈ ds', label (TrackOps.uuid t) = label (TrackOps.uuid d) → (ciVisitor t d).IsOk) :
    ∃ m' a, period solve (euclideanScore (fun s t => rd (s.euclid t)) fun s t => rd (s.euclid t)) gate ciVisitor
        makeTrack2 (fun o => predict2 o time (unscentedTransform chol α β κ) (unscentedTransform chol α β κ)) ds m =
        (m', .ok a) ∧
      ∀ o x d, Shows m label o x → Only ds label o d → ∃ x', SoloStep ciVisitor makeTrack2
        (fun o => predict2 o time (unscentedTransform chol α β κ) (unscentedTransform chol α β κ))
        m.promo.toNat m.removal.toNat x d x' ∧ Shows m' label o x' := by
  have hds' : ∀ d' ∈ ds', ∃ d ∈ ds, poseGap (objPose d') (world (label (TrackOps.uuid d'))) ≤ ε ∧
      TrackOps.uuid d' = TrackOps.uuid d ∧ d'.isLeft = d.isLeft := by
    intro d' hd'
    obtain ⟨d, hdm, h⟩ := forall₂_right hd d' hd'
    obtain ⟨h1, h2, h3⟩ := C131_follows hchol hk0' (hds d hdm) h
    exact ⟨d, hdm, h2 ▸ h1, h2, h3⟩
  have hap := C131_apart hchol hk0 (label := label) (world := world) (D := D) (ε := ε) (ds := ds') ht hts
    (fun d' hd' => (hds' d' hd').elim fun d h => h.2.1)
    (fun o ho d' hd' hl => by
      obtain ⟨d, hdm, -, h2, h3⟩ := hds' d' hd'
      rw [h3]
      exact hkind o ho d hdm (h2 ▸ hl))
    (fun o ho d' hd' hl => by
      obtain ⟨d, hdm, -, h2, h3⟩ := hds' d' hd'
      rw [h2] at hl ⊢
      exact hapart o ho d hdm hl) hu hu1 hrd hg hg31 hgR hgD (by
      rcases hdef with ⟨t, htm, d, hdm, t₂, ht₂, d₂, hd₂, h1, h2, h3⟩ | h
      · obtain ⟨e, he, hp⟩ := forall₂_right hd.flip d hdm
        obtain ⟨e₂, he₂, hp₂⟩ := forall₂_right hd.flip d₂ hd₂
        refine .inl ⟨t, htm, e, he, t₂, ht₂, e₂, he₂, ?_, ?_, h3⟩
        · rw [(predict2_same hp).uuid]; exact h1
        · rw [(predict2_same hp₂).uuid]; exact h2
      · exact .inr h)
  obtain ⟨m', a, hp, -, -, h⟩ := C102_period hr hn hs ciVisitor_same
    (align := fun o => predict2 o time (unscentedTransform chol α β κ) (unscentedTransform chol α β κ))
    (fun o o' h => predict2_same h) hone hD hbig ht hd hap hf
  exact ⟨m', a, hp, h⟩

/-- C131: the bound cannot be lowered.  For every `k` and `R`, and every `g` below `R`, there are a track and an
object with the bound `R` such that the track, predicted to its own time, is farther than `g` from the object, so that
a gate at `g` separates it from a perfect detection. -/
theorem C131_tight {chol : Chol} (hchol : IsLlt chol) {k R g : ℝ} (hk0 : 0 < k) (hk7 : k ^ 2 ≤ 7) (hR : 0 < R)
    (hg : g < R) :
    ∃ (o : MotObj) (w : Fin 3 → ℝ) (p : MotObj), Follows 1 2 k 10 R o w ∧
      predict2 o 10 (unscentedTransform chol 1 2 1) (unscentedTransform chol 1 2 1) = .ok p ∧
      g < poseGap (objPose p) w := by
  have hpi := Real.pi_gt_three
  have hpi' := Real.pi_lt_d2
  have hcut := yawCut_bounds
  set s : ℝ := (max g 0 + R) / 2 / k with hs
  have hm0 : 0 ≤ max g 0 := le_max_right _ _
  have hmR : max g 0 < R := max_lt hg hR
  have hs0 : 0 < s := by positivity
  have hks : k * s = (max g 0 + R) / 2 := by rw [hs]; field_simp
  have hsR : k * s < R := by rw [hks]; linarith
  have hgs : g < k * s := by rw [hks]; linarith [le_max_left g 0]
  have hgap : 0 < (R ^ 2 - (k * s) ^ 2) / (2 * k ^ 2) := by
    have : (k * s) ^ 2 < R ^ 2 := pow_lt_pow_left₀ hsR (by positivity) two_ne_zero
    exact div_pos (by linarith) (by positivity)
  set v : ℝ := min ((R ^ 2 - (k * s) ^ 2) / (2 * k ^ 2)) (1 / 100) with hv
  have hv0 : 0 < v := lt_min hgap (by norm_num)
  have hv1 : v ≤ 1 / 100 := min_le_right _ _
  have hv2 : v * (2 * k ^ 2) ≤ R ^ 2 - (k * s) ^ 2 := by
    rw [← le_div_iff₀ (by positivity)]
    exact min_le_left _ _
  have hhalf : (Angle.ofRad (π / 2)).getAngle = π / 2 :=
    Angle.getAngle_ofRad_of_range ⟨by linarith, by linarith⟩
  set d : Fin 5 → ℝ := ![s ^ 2, v, v, v, v] with hd
  have hd0 : ∀ i, 0 < d i := by
    intro i
    fin_cases i
    · exact pow_pos hs0 2
    all_goals exact hv0
  have hP : (diagonal d : CtrvCov).PosDef := Matrix.PosDef.diagonal hd0
  have h7 : √(7 * v) ≤ 1 / 2 := by
    rw [Real.sqrt_le_left (by norm_num)]; linarith
  set o : DynObj CtrvState CtrvCov := ⟨10, ⟨0, 0, 5, Angle.ofRad (π / 2), 0⟩, diagonal d, ⟨[1]⟩, .unknown⟩ with ho
  set t : CtrvState := ⟨k * s, 0, 5, Angle.ofRad (π / 2), 0⟩ with ht
  have hp : predict2 (.inl o : MotObj) 10 (unscentedTransform chol 1 2 1) (unscentedTransform chol 1 2 1) =
      .ok (.inl o) := by
    have h : predict o 10 (defaultUt chol) = .ok o :=
      C41_ctrv_partial hchol o (Angle.valid_ofRad _) hP
        (by simp only [ho, hhalf, diagonal_apply_eq, show d 3 = v from rfl]; linarith)
        (by simp only [ho, hhalf, diagonal_apply_eq, show d 3 = v from rfl]; linarith)
    rw [defaultUt, predict] at h
    rw [predict2, propagate2]
    generalize propagate 10 (unscentedTransform chol 1 2 1) o = z at h ⊢
    rcases z with ⟨q, ⟨⟩ | _ | _⟩
    · cases h; rfl
    · cases h
    · cases h
  have hnext : t.next 0 = t := C43_ctrv_zero_step t (Angle.valid_ofRad _)
  refine ⟨.inl o, ![(t.next 0).x, (t.next 0).y, (t.next 0).yaw.getAngle], .inl o, ?_, hp, ?_⟩
  · refine .ctrv (t := t) (e := Pi.single 0 (k * s)) (T := 0) (c := π / 2) (V := v) (by norm_num [ho]) hP ?_ ?_
      (by norm_num; exact hk7) ?_ ?_ ?_ ?_ ?_
    · intro i
      fin_cases i <;> simp [ho, ht, CtrvState.toVec]
      exact SameDir.refl _
    · intro u _
      have e0 : u ⬝ᵥ ((diagonal d : CtrvCov) *ᵥ u) = s ^ 2 * u 0 ^ 2 + v * (u 1 ^ 2 + u 2 ^ 2 + u 3 ^ 2 + u 4 ^ 2) := by
        simp [dotProduct, mulVec_diagonal, Fin.sum_univ_five, hd]
        ring
      rw [dotProduct_single, e0]
      have : 0 ≤ k ^ 2 * (v * (u 1 ^ 2 + u 2 ^ 2 + u 3 ^ 2 + u 4 ^ 2)) := by positivity
      nlinarith
    · simp only [ho, hhalf, mul_zero, add_zero]
      exact SameDir.refl _
    · simp [ho, headingVariance, show d 3 = v from rfl]
    · norm_num at h7 ⊢
      linarith
    · norm_num at h7 ⊢
      linarith
    · have e1 : √(s ^ 2 + v) ^ 2 = s ^ 2 + v := Real.sq_sqrt (by positivity)
      simp only [poseReach, ctrvPositionReach, ho, diagonal_apply_eq, show d 0 = s ^ 2 from rfl,
        show d 1 = v from rfl, abs_zero]
      rw [Real.sqrt_le_left hR.le]
      ring_nf
      ring_nf at e1 hv2
      rw [e1]
      nlinarith
  · rw [hnext]
    refine lt_of_lt_of_le hgs (Real.le_sqrt_of_sq_le ?_)
    simp [objPose, ho, ht]

/-- the hypotheses, with a gate a centimetre below the bound of a metre -/
example {chol : Chol} (hchol : IsLlt chol) : ∃ (o : MotObj) (w : Fin 3 → ℝ) (p : MotObj), Follows 1 2 2 10 1 o w ∧
    predict2 o 10 (unscentedTransform chol 1 2 1) (unscentedTransform chol 1 2 1) = .ok p ∧
    99 / 100 < poseGap (objPose p) w :=
  C131_tight hchol (by norm_num) (by norm_num) (by norm_num) (by norm_num)

/-- C131, for CTRA objects: the bound cannot be lowered.  For every `k` and `R`, and every `g` below `R`, there are a track and an
object with the bound `R` such that the track, predicted to its own time, is farther than `g` from the object, so that
a gate at `g` separates it from a perfect detection. -/
theorem C131_tight_ctra {chol : Chol} (hchol : IsLlt chol) {k R g : ℝ} (hk0 : 0 < k) (hk8 : k ^ 2 ≤ 8) (hR : 0 < R)
    (hg : g < R) :
    ∃ (o : DynObj CtraState CtraCov) (w : Fin 3 → ℝ) (p : MotObj), Follows 1 2 k 10 R (.inr o) w ∧
      predict2 (.inr o) 10 (unscentedTransform chol 1 2 1) (unscentedTransform chol 1 2 1) = .ok p ∧
      g < poseGap (objPose p) w := by
  have hpi := Real.pi_gt_three
  have hpi' := Real.pi_lt_d2
  have hcut := yawCut_bounds
  set s : ℝ := (max g 0 + R) / 2 / k with hs
  have hm0 : 0 ≤ max g 0 := le_max_right _ _
  have hmR : max g 0 < R := max_lt hg hR
  have hs0 : 0 < s := by positivity
  have hks : k * s = (max g 0 + R) / 2 := by rw [hs]; field_simp
  have hsR : k * s < R := by rw [hks]; linarith
  have hgs : g < k * s := by rw [hks]; linarith [le_max_left g 0]
  have hgap : 0 < (R ^ 2 - (k * s) ^ 2) / (2 * k ^ 2) := by
    have : (k * s) ^ 2 < R ^ 2 := pow_lt_pow_left₀ hsR (by positivity) two_ne_zero
    exact div_pos (by linarith) (by positivity)
  set v : ℝ := min ((R ^ 2 - (k * s) ^ 2) / (2 * k ^ 2)) (1 / 100) with hv
  have hv0 : 0 < v := lt_min hgap (by norm_num)
  have hv1 : v ≤ 1 / 100 := min_le_right _ _
  have hv2 : v * (2 * k ^ 2) ≤ R ^ 2 - (k * s) ^ 2 := by
    rw [← le_div_iff₀ (by positivity)]
    exact min_le_left _ _
  have hhalf : (Angle.ofRad (π / 2)).getAngle = π / 2 :=
    Angle.getAngle_ofRad_of_range ⟨by linarith, by linarith⟩
  set d : Fin 6 → ℝ := ![s ^ 2, v, v, v, v, v] with hd
  have hd0 : ∀ i, 0 < d i := by
    intro i
    fin_cases i
    · exact pow_pos hs0 2
    all_goals exact hv0
  have hP : (diagonal d : CtraCov).PosDef := Matrix.PosDef.diagonal hd0
  have h8 : √(8 * v) ≤ 1 / 2 := by
    rw [Real.sqrt_le_left (by norm_num)]; linarith
  set o : DynObj CtraState CtraCov := ⟨10, ⟨0, 0, 5, Angle.ofRad (π / 2), 0, 0⟩, diagonal d, ⟨[1]⟩, .unknown⟩ with ho
  set t : CtraState := ⟨k * s, 0, 5, Angle.ofRad (π / 2), 0, 0⟩ with ht
  have hp : predict2 (.inr o : MotObj) 10 (unscentedTransform chol 1 2 1) (unscentedTransform chol 1 2 1) =
      .ok (.inr o) := by
    have h : predict o 10 (defaultUt chol) = .ok o :=
      C41_ctra_partial hchol o (Angle.valid_ofRad _) hP
        (by simp only [ho, hhalf, diagonal_apply_eq, show d 3 = v from rfl]; linarith)
        (by simp only [ho, hhalf, diagonal_apply_eq, show d 3 = v from rfl]; linarith)
    rw [defaultUt, predict] at h
    rw [predict2, propagate2]
    generalize propagate 10 (unscentedTransform chol 1 2 1) o = z at h ⊢
    rcases z with ⟨q, ⟨⟩ | _ | _⟩
    · cases h; rfl
    · cases h
    · cases h
  have hnext : t.next 0 = t := C43_ctra_zero_step t (Angle.valid_ofRad _)
  refine ⟨o, ![(t.next 0).x, (t.next 0).y, (t.next 0).yaw.getAngle], .inr o, ?_, hp, ?_⟩
  · refine .ctra (t := t) (e := Pi.single 0 (k * s)) (T := 0) (c := π / 2) (V := v) (by norm_num [ho]) hP ?_ ?_
      (by norm_num; exact hk8) ?_ ?_ ?_ ?_ ?_
    · intro i
      fin_cases i <;> simp [ho, ht, CtraState.toVec]
      exact SameDir.refl _
    · intro u _
      have e0 : u ⬝ᵥ ((diagonal d : CtraCov) *ᵥ u) = s ^ 2 * u 0 ^ 2 + v * (u 1 ^ 2 + u 2 ^ 2 + u 3 ^ 2 + u 4 ^ 2 + u 5 ^ 2) := by
        simp [dotProduct, mulVec_diagonal, Fin.sum_univ_six, hd]
        ring
      rw [dotProduct_single, e0]
      have : 0 ≤ k ^ 2 * (v * (u 1 ^ 2 + u 2 ^ 2 + u 3 ^ 2 + u 4 ^ 2 + u 5 ^ 2)) := by positivity
      nlinarith
    · simp only [ho, hhalf, mul_zero, add_zero]
      exact SameDir.refl _
    · simp [ho, headingVariance, show d 3 = v from rfl]
    · norm_num at h8 ⊢
      linarith
    · norm_num at h8 ⊢
      linarith
    · have e1 : √(s ^ 2 + v) ^ 2 = s ^ 2 + v := Real.sq_sqrt (by positivity)
      simp only [poseReach, ctraPositionReach, ho, diagonal_apply_eq, show d 0 = s ^ 2 from rfl,
        show d 1 = v from rfl, abs_zero]
      rw [Real.sqrt_le_left hR.le]
      ring_nf
      ring_nf at e1 hv2
      rw [e1]
      nlinarith
  · rw [hnext]
    refine lt_of_lt_of_le hgs (Real.le_sqrt_of_sq_le ?_)
    simp [objPose, ho, ht]

/-- the same for a CTRA object -/
example {chol : Chol} (hchol : IsLlt chol) : ∃ (o : DynObj CtraState CtraCov) (w : Fin 3 → ℝ) (p : MotObj),
    Follows 1 2 2 10 1 (.inr o) w ∧
    predict2 (.inr o) 10 (unscentedTransform chol 1 2 1) (unscentedTransform chol 1 2 1) = .ok p ∧
    99 / 100 < poseGap (objPose p) w :=
  C131_tight_ctra hchol (by norm_num) (by norm_num) (by norm_num) (by norm_num)

/-! ### Hypotheses -/

/-- a CTRV track at `10 s`, at `x` on the x axis, that moves north at 5 m/s, with standard deviations of 0.1 -/
noncomputable def gateTrack (x : ℝ) (u : Uuid) : DynObj CtrvState CtrvCov :=
  ⟨10, ⟨x, 0, 5, Angle.ofRad (π / 2), 0⟩, diagonal fun _ => (1 / 10) ^ 2, u, .unknown⟩

/-- the object it follows turns by 0.1 rad/s -/
noncomputable def gateTruth (x : ℝ) : CtrvState := ⟨x, 0, 5, Angle.ofRad (π / 2), 1 / 10⟩

/-- a detection that shows the object as it is at `11 s` -/
noncomputable def gateDetection (x : ℝ) (u : Uuid) : DynObj CtrvState CtrvCov :=
  ⟨11, (gateTruth x).next 1, 1, u, .unknown⟩

theorem gateTrack_follows (x : ℝ) (u : Uuid) :
    Follows 1 2 1 11 3 (.inl (gateTrack x u)) (objPose (.inl (gateDetection x u))) := by
  have hpi := Real.pi_gt_three
  have hpi' := Real.pi_lt_d2
  have hs : √(((1 : ℝ) / 10) ^ 2) = 1 / 10 := Real.sqrt_sq (by norm_num)
  have h7 : √((1 : ℝ) ^ 2 * (5 + 2) * (2 / 100)) ≤ 1 / 2 := by
    rw [Real.sqrt_le_left (by norm_num)]; norm_num
  have hhalf : (Angle.ofRad (π / 2)).getAngle = π / 2 :=
    Angle.getAngle_ofRad_of_range ⟨by linarith, by linarith⟩
  refine .ctrv (t := gateTruth x) (e := Pi.single 4 √((fun _ : Fin 5 => ((1 : ℝ) / 10) ^ 2) 4)) (T := 1) (c := π / 2)
    (V := 2 / 100) (by norm_num [gateTrack]) (Matrix.PosDef.diagonal fun i => by norm_num) ?_
    (covers_diagonal (fun i => by norm_num) 4) (by norm_num) ?_ ?_ ?_ ?_ ?_
  · intro i
    fin_cases i <;> simp [gateTrack, gateTruth, CtrvState.toVec]
    exact SameDir.refl _
  · simp only [gateTrack, hhalf, mul_zero, add_zero]
    exact SameDir.refl _
  · simp [gateTrack, headingVariance]
    norm_num
  · linarith
  · norm_num at h7 ⊢
    linarith
  · have hρ : √((5 : ℝ) / (1 ^ 2 * (5 + 2))) ≤ 1 := by
      rw [Real.sqrt_le_left (by norm_num)]; norm_num
    have hρ0 := Real.sqrt_nonneg ((5 : ℝ) / (1 ^ 2 * (5 + 2)))
    have h2 : √(((1 : ℝ) / 10) ^ 2 + (1 / 10) ^ 2) ≤ 2 / 10 := by
      rw [Real.sqrt_le_left (by norm_num)]; norm_num
    have h20 := Real.sqrt_nonneg (((1 : ℝ) / 10) ^ 2 + (1 / 10) ^ 2)
    have hη : (1 : ℝ) / 2 ^ 1021 ≤ 1 / 100 := by
      apply one_div_le_one_div_of_le (by norm_num)
      calc (100 : ℝ) ≤ 2 ^ 7 := by norm_num
        _ ≤ 2 ^ 1021 := pow_le_pow_right₀ (by norm_num) (by norm_num)
    have hη0 : (0 : ℝ) ≤ 1 / 2 ^ 1021 := by positivity
    simp only [poseReach, ctrvPositionReach, gateTrack, diagonal_apply_eq, hs]
    generalize √((5 : ℝ) / (1 ^ 2 * (5 + 2))) = ρ at *
    generalize √(((1 : ℝ) / 10) ^ 2 + (1 / 10) ^ 2) = z at *
    generalize (1 : ℝ) / 2 ^ 1021 = η at *
    rw [abs_of_nonneg (by norm_num : (0 : ℝ) ≤ 1), abs_of_nonneg (by norm_num : (0 : ℝ) ≤ 5),
      Real.sqrt_le_left (by norm_num)]
    have hb : (1 + ρ ^ 2) * (5 * 1 ^ 2 / 2 * η) ≤ 2 * (5 * 1 ^ 2 / 2 * (1 / 100)) :=
      mul_le_mul (by nlinarith) (by linarith) (by positivity) (by norm_num)
    have hb0 : 0 ≤ (1 + ρ ^ 2) * (5 * 1 ^ 2 / 2 * η) := by positivity
    generalize (1 + ρ ^ 2) * (5 * 1 ^ 2 / 2 * η) = b at *
    norm_num at *
    nlinarith

/-- a track that moves south -/
noncomputable def southTrack : DynObj CtrvState CtrvCov :=
  ⟨10, ⟨0, 0, 5, Angle.ofRad (3 * π / 2), 0⟩, diagonal fun _ => (1 / 10) ^ 2, ⟨[1]⟩, .unknown⟩

/-- It is predicted to within 4 of an object that turns by 0.1 rad/s. -/
example {chol : Chol} (hchol : IsLlt chol) :
    ∃ p, predict southTrack 11 (unscentedTransform chol 1 2 1) = .ok p ∧
      p.state.euclid (CtrvState.next ⟨0, 0, 5, Angle.ofRad (3 * π / 2), 1 / 10⟩ 1) ≤ 4 := by
  have hpi := Real.pi_gt_three
  have hpi' := Real.pi_lt_d2
  have hs : √(((1 : ℝ) / 10) ^ 2) = 1 / 10 := Real.sqrt_sq (by norm_num)
  have h7 : √((1 : ℝ) ^ 2 * (5 + 2) * (2 / 100)) ≤ 1 / 2 := by
    rw [Real.sqrt_le_left (by norm_num)]; norm_num
  have hhalf : (Angle.ofRad (3 * π / 2)).getAngle = 3 * π / 2 :=
    Angle.getAngle_ofRad_of_range ⟨by linarith, by linarith⟩
  have hP : southTrack.covariance.PosDef := Matrix.PosDef.diagonal fun i => by norm_num
  have hT : (1 : ℝ) = 11 - southTrack.timestamp := by norm_num [southTrack]
  have hc : SameDir (3 * π / 2) (southTrack.state.yaw.getAngle + 1 * southTrack.state.yawRate) := by
    simp only [southTrack, hhalf, mul_zero, add_zero]
    exact SameDir.refl _
  have hV : (2 : ℝ) / 100 = headingVariance 1 (southTrack.covariance 3 3) (southTrack.covariance 3 4)
      (southTrack.covariance 4 4) := by
    simp [southTrack, headingVariance]
    norm_num
  have hcut := yawCut_bounds
  have h0 : yawCut + √((1 : ℝ) ^ 2 * (5 + 2) * (2 / 100)) < 3 * π / 2 := by linarith
  have h1 : 3 * π / 2 + √((1 : ℝ) ^ 2 * (5 + 2) * (2 / 100)) < 2 * π := by linarith
  obtain ⟨p, hp, -⟩ := C84_heading_high_ctrv hchol hP (α := 1) (β := 2) (κ := 1) hT (by norm_num) hc (by rw [hV, headingVariance]) h0 h1
  refine ⟨p, hp, (C131_high_ctrv hchol hP (k := 1) (by norm_num) hT rfl (by norm_num) hc hV rfl h0 h1 hp
    (t := ⟨0, 0, 5, Angle.ofRad (3 * π / 2), 1 / 10⟩)
    (e := Pi.single 4 √((fun _ : Fin 5 => ((1 : ℝ) / 10) ^ 2) 4)) ?_
    (covers_diagonal (fun i => by norm_num) 4)).trans ?_⟩
  · intro i
    fin_cases i <;> simp [southTrack, CtrvState.toVec]
    exact SameDir.refl _
  · have hρ : √((5 : ℝ) / (1 ^ 2 * (5 + 2))) ≤ 1 := by
      rw [Real.sqrt_le_left (by norm_num)]; norm_num
    have hρ0 := Real.sqrt_nonneg ((5 : ℝ) / (1 ^ 2 * (5 + 2)))
    have h2 : √(((1 : ℝ) / 10) ^ 2 + (1 / 10) ^ 2) ≤ 2 / 10 := by
      rw [Real.sqrt_le_left (by norm_num)]; norm_num
    have h20 := Real.sqrt_nonneg (((1 : ℝ) / 10) ^ 2 + (1 / 10) ^ 2)
    have hη : (1 : ℝ) / 2 ^ 1021 ≤ 1 / 100 := by
      apply one_div_le_one_div_of_le (by norm_num)
      calc (100 : ℝ) ≤ 2 ^ 7 := by norm_num
        _ ≤ 2 ^ 1021 := pow_le_pow_right₀ (by norm_num) (by norm_num)
    have hη0 : (0 : ℝ) ≤ 1 / 2 ^ 1021 := by positivity
    have hq : √((2 : ℝ) / 100) ≤ 2 / 10 := by
      rw [Real.sqrt_le_left (by norm_num)]; norm_num
    have hq0 := Real.sqrt_nonneg ((2 : ℝ) / 100)
    simp only [poseReachHigh, ctrvPositionReach, southTrack, diagonal_apply_eq, hs]
    generalize √((5 : ℝ) / (1 ^ 2 * (5 + 2))) = ρ at *
    generalize √(((1 : ℝ) / 10) ^ 2 + (1 / 10) ^ 2) = z at *
    generalize √((2 : ℝ) / 100) = q at *
    generalize (1 : ℝ) / 2 ^ 1021 = η at *
    rw [abs_of_nonneg (by norm_num : (0 : ℝ) ≤ 1), abs_of_nonneg (by norm_num : (0 : ℝ) ≤ 5),
      Real.sqrt_le_left (by norm_num)]
    have hb : (1 + ρ ^ 2) * (5 * 1 ^ 2 / 2 * η) ≤ 2 * (5 * 1 ^ 2 / 2 * (1 / 100)) :=
      mul_le_mul (by nlinarith) (by linarith) (by positivity) (by norm_num)
    have hb0 : 0 ≤ (1 + ρ ^ 2) * (5 * 1 ^ 2 / 2 * η) := by positivity
    generalize (1 + ρ ^ 2) * (5 * 1 ^ 2 / 2 * η) = b at *
    have hB : 1 * z + (1 + ρ) * (1 * (1 / 10) + 5 * 1 * (1 / 10) + 5 * 1 ^ 2 / 2 * (1 / 10)) + b ≤ 3 := by linarith
    have hB0 : 0 ≤ 1 * z + (1 + ρ) * (1 * (1 / 10) + 5 * 1 * (1 / 10) + 5 * 1 ^ 2 / 2 * (1 / 10)) + b := by positivity
    have hH : 1 * q + 2 / 10 ^ 12 ≤ 1 := by linarith
    have hH0 : 0 ≤ 1 * q + 2 / 10 ^ 12 := by positivity
    have e1 := pow_le_pow_left₀ hB0 hB 2
    have e2 := pow_le_pow_left₀ hH0 hH 2
    linarith

/-- a gate at 10 -/
def gateAtTen : FP → Bool
  | .fin q => decide (10 < q)
  | _ => true

private theorem next_x (x y v : ℝ) (a : Angle) (w T : ℝ) :
    (CtrvState.next ⟨x, y, v, a, w⟩ T).x = x + (CtrvState.next ⟨0, y, v, a, w⟩ T).x := by
  by_cases h : unitsEq w 0
  · simp only [CtrvState.next, if_pos h]; ring
  · simp only [CtrvState.next, if_neg h]; ring

theorem exists_rounding : ∃ rd : ℝ → FP, ∀ x, 0 ≤ x → ∃ q, rd x = .fin q ∧ Near (1 / 2) x q := by
  classical
  have hq : ∀ x : ℝ, 0 ≤ x → ∃ q : ℚ, Near (1 / 2) x q := by
    intro x hx
    rcases hx.eq_or_lt with rfl | hx
    · exact ⟨0, le_rfl, by simp⟩
    · obtain ⟨q, h1, h2⟩ := exists_rat_btwn (show x / 2 < x by linarith)
      refine ⟨q, ?_, ?_⟩
      · have : (0 : ℝ) < q := by linarith
        exact_mod_cast this.le
      · rw [abs_le]; constructor <;> linarith
  refine ⟨fun x => if h : 0 ≤ x then .fin (Classical.choose (hq x h)) else .nan, fun x hx => ?_⟩
  exact ⟨_, dif_pos hx, Classical.choose_spec (hq x hx)⟩

/-- Two such tracks a kilometre apart: the association is right, for any optimal solver and a rounding of the
distance that may be off by half. -/
example {chol : Chol} (hchol : IsLlt chol) {solve : Solver} (hs : IsOptimalSolver solve) :
    ∃ (rd : ℝ → FP) (ts' : List MotObj) (a : AssociationMap), List.Forall₂ (fun o o' => predict2 o 11
        (unscentedTransform chol 1 2 1) (unscentedTransform chol 1 2 1) = .ok o')
        [.inl (gateTrack 0 ⟨[1]⟩), .inl (gateTrack 1000 ⟨[1, 1]⟩)] ts' ∧
      associateStep solve (euclideanScore (fun s t => rd (s.euclid t)) fun s t => rd (s.euclid t))
        gateAtTen ts'
        [.inl (gateDetection 1000 ⟨[2, 2]⟩), .inl (gateDetection 0 ⟨[2]⟩)] = .ok a ∧
      a.find? ⟨[1]⟩ = some [⟨[2]⟩] ∧ a.find? ⟨[1, 1]⟩ = some [⟨[2, 2]⟩] := by
  obtain ⟨rd, hrd⟩ := exists_rounding
  have hp : ∀ x u, ∃ p, predict2 (.inl (gateTrack x u) : MotObj) 11 (unscentedTransform chol 1 2 1)
      (unscentedTransform chol 1 2 1) = .ok p := by
    intro x u
    obtain ⟨p, h, -⟩ := C42_default chol (gateTrack x u) 11
    refine ⟨.inl p, ?_⟩
    rw [defaultUt, predict] at h
    rw [predict2, propagate2]
    generalize propagate 11 (unscentedTransform chol 1 2 1) (gateTrack x u) = z at h ⊢
    rcases z with ⟨q, ⟨⟩ | _ | _⟩
    · cases h; rfl
    · cases h
    · cases h
  obtain ⟨p₁, h₁⟩ := hp 0 ⟨[1]⟩
  obtain ⟨p₂, h₂⟩ := hp 1000 ⟨[1, 1]⟩
  have hpred : List.Forall₂ (fun o o' => predict2 o 11 (unscentedTransform chol 1 2 1)
      (unscentedTransform chol 1 2 1) = .ok o')
      [.inl (gateTrack 0 ⟨[1]⟩), .inl (gateTrack 1000 ⟨[1, 1]⟩)] [p₁, p₂] :=
    .cons h₁ (.cons h₂ .nil)
  have hgap0 : ∀ p : Fin 3 → ℝ, poseGap p p = 0 := fun p => by simp [poseGap]
  have hx : ∀ x u, objPose (.inl (gateDetection x u)) 0 = x + objPose (.inl (gateDetection 0 u)) 0 := by
    intro x u
    exact next_x x 0 5 _ (1 / 10) 1
  have hfar : ∀ u v, 1000 ≤ poseGap (objPose (.inl (gateDetection 0 u))) (objPose (.inl (gateDetection 1000 v))) := by
    intro u v
    refine Real.le_sqrt_of_sq_le ?_
    have : objPose (.inl (gateDetection 0 u)) 0 = objPose (.inl (gateDetection 0 v)) 0 := rfl
    rw [hx 1000 v, this]
    nlinarith [sq_nonneg (objPose (.inl (gateDetection 0 u)) 1 - objPose (.inl (gateDetection 1000 v)) 1),
      sq_nonneg (objPose (.inl (gateDetection 0 u)) 2 - objPose (.inl (gateDetection 1000 v)) 2)]
  set label : Uuid → ℕ := fun u => u.value.length with hlabel
  set world : ℕ → Fin 3 → ℝ := fun n => if n = 1 then objPose (.inl (gateDetection 0 ⟨[1]⟩))
    else objPose (.inl (gateDetection 1000 ⟨[1]⟩)) with hworld
  set ts : List MotObj := [.inl (gateTrack 0 ⟨[1]⟩), .inl (gateTrack 1000 ⟨[1, 1]⟩)] with hts
  set ds : List MotObj := [.inl (gateDetection 1000 ⟨[2, 2]⟩), .inl (gateDetection 0 ⟨[2]⟩)] with hds
  have mt₁ : .inl (gateTrack 0 ⟨[1]⟩) ∈ ts := List.mem_cons_self
  have mt₂ : .inl (gateTrack 1000 ⟨[1, 1]⟩) ∈ ts := List.mem_cons_of_mem _ List.mem_cons_self
  have md₂ : .inl (gateDetection 1000 ⟨[2, 2]⟩) ∈ ds := List.mem_cons_self
  have md₁ : .inl (gateDetection 0 ⟨[2]⟩) ∈ ds := List.mem_cons_of_mem _ List.mem_cons_self
  have k1 : ∀ o ∈ ts, Follows 1 2 1 11 3 o (world (label (TrackOps.uuid o))) := by
    simp only [hts, List.mem_cons, List.not_mem_nil, or_false, forall_eq_or_imp, forall_eq]
    exact ⟨gateTrack_follows 0 ⟨[1]⟩, gateTrack_follows 1000 ⟨[1, 1]⟩⟩
  have k2 : ∀ d ∈ ds, poseGap (objPose d) (world (label (TrackOps.uuid d))) ≤ 1 := by
    simp only [hds, List.mem_cons, List.not_mem_nil, or_false, forall_eq_or_imp, forall_eq]
    exact ⟨le_trans (le_of_eq (hgap0 _)) zero_le_one, le_trans (le_of_eq (hgap0 _)) zero_le_one⟩
  have k3 : ∀ o ∈ ts, ∀ d ∈ ds, label (TrackOps.uuid o) = label (TrackOps.uuid d) → o.isLeft = d.isLeft := by
    simp only [hts, hds, List.mem_cons, List.not_mem_nil, or_false, forall_eq_or_imp, forall_eq]
    exact ⟨⟨fun _ => rfl, fun _ => rfl⟩, fun _ => rfl, fun _ => rfl⟩
  have k4 : ∀ o ∈ ts, ∀ d ∈ ds, label (TrackOps.uuid o) ≠ label (TrackOps.uuid d) →
      1000 ≤ poseGap (world (label (TrackOps.uuid o))) (world (label (TrackOps.uuid d))) := by
    simp only [hts, hds, List.mem_cons, List.not_mem_nil, or_false, forall_eq_or_imp, forall_eq]
    refine ⟨⟨fun _ => hfar _ _, fun h => absurd rfl h⟩, fun h => absurd rfl h, fun _ => ?_⟩
    refine (hfar ⟨[1]⟩ ⟨[1]⟩).trans (le_of_eq ?_)
    rw [poseGap_eq, poseDistance_comm, ← poseGap_eq]
    rfl
  have hT : ts.map (fun x => label (TrackOps.uuid x)) = [1, 2] := rfl
  have hD : ds.map (fun x => label (TrackOps.uuid x)) = [2, 1] := rfl
  obtain ⟨a, ha, hfind, -⟩ := C131_association hchol (u := 1 / 2) (rd := rd) (gate := gateAtTen) (g := 10) zero_le_one
    hpred k1 k2 k3 k4 (by norm_num) (by norm_num) (fun x hx => .inl (hrd x hx)) (fun _ => rfl) (by norm_num)
    (by norm_num) (by norm_num) (by rw [hT]; decide) (by rw [hD]; decide)
    (.inl ⟨_, mt₁, _, md₁, _, mt₂, _, md₂, rfl, rfl, by show 2 ≠ 1; decide⟩) (by simp [hts, hds]) hs
  exact ⟨rd, _, a, hpred, ha, (hfind _ _).2 ⟨_, mt₁, _, md₁, rfl, rfl, rfl⟩,
    (hfind _ _).2 ⟨_, mt₂, _, md₂, rfl, rfl, rfl⟩⟩

/-- a manager with two such tracks a kilometre apart -/
noncomputable def gateManager : Manager MotObj :=
  (addTentativeTrack (.inl (gateTrack 0 ⟨[1]⟩)) (addTentativeTrack (.inl (gateTrack 1000 ⟨[1, 1]⟩)) (Manager.new 3 0)).1).1

theorem gateManager_reachable : ReachableIn _ _ 0 gateManager := by
  have h0 : ReachableIn _ _ 0 (Manager.new 3 0 : Manager MotObj) := ⟨3, 0, [], [], .nil (Reordered.refl _), rfl⟩
  have h1 := reachable_step h0 (.add (.inl (gateTrack 1000 ⟨[1, 1]⟩)))
  exact reachable_step h1 (.add (.inl (gateTrack 0 ⟨[1]⟩)))

theorem gateManager_tracks : gateManager.getAllTracks =
    [.inl (gateTrack 0 ⟨[1]⟩), .inl (gateTrack 1000 ⟨[1, 1]⟩)] := rfl

/-- the object turns by 0.1 rad/s; this shows it at the time of the track -/
theorem gateTrack_follows_now (x : ℝ) (u : Uuid) :
    Follows 1 2 1 10 3 (.inl (gateTrack x u)) (objPose (.inl (gateTrack x u))) := by
  have hpi := Real.pi_gt_three
  have hpi' := Real.pi_lt_d2
  have hhalf : (Angle.ofRad (π / 2)).getAngle = π / 2 :=
    Angle.getAngle_ofRad_of_range ⟨by linarith, by linarith⟩
  have h7 : √((1 : ℝ) ^ 2 * (5 + 2) * (1 / 100)) ≤ 1 / 2 := by
    rw [Real.sqrt_le_left (by norm_num)]; norm_num
  have hw : objPose (.inl (gateTrack x u)) =
      ![((gateTruth x).next 0).x, ((gateTruth x).next 0).y, ((gateTruth x).next 0).yaw.getAngle] := by
    rw [C43_ctrv_zero_step (gateTruth x) (Angle.valid_ofRad _)]
    rfl
  rw [hw]
  refine .ctrv (t := gateTruth x) (e := Pi.single 4 √((fun _ : Fin 5 => ((1 : ℝ) / 10) ^ 2) 4)) (T := 0) (c := π / 2)
    (V := 1 / 100) (by norm_num [gateTrack]) (Matrix.PosDef.diagonal fun i => by norm_num) ?_
    (covers_diagonal (fun i => by norm_num) 4) (by norm_num) ?_ ?_ ?_ ?_ ?_
  · intro i
    fin_cases i <;> simp [gateTrack, gateTruth, CtrvState.toVec]
    exact SameDir.refl _
  · simp only [gateTrack, hhalf, mul_zero, add_zero]
    exact SameDir.refl _
  · simp [gateTrack, headingVariance]
    norm_num
  · linarith
  · norm_num at h7 ⊢
    linarith
  · have h2 : √(((1 : ℝ) / 10) ^ 2 + (1 / 10) ^ 2) ≤ 2 / 10 := by
      rw [Real.sqrt_le_left (by norm_num)]; norm_num
    have h20 := Real.sqrt_nonneg (((1 : ℝ) / 10) ^ 2 + (1 / 10) ^ 2)
    simp only [poseReach, ctrvPositionReach, gateTrack, diagonal_apply_eq]
    generalize √(((1 : ℝ) / 10) ^ 2 + (1 / 10) ^ 2) = z at *
    rw [Real.sqrt_le_left (by norm_num)]
    simp only [abs_zero]
    ring_nf
    nlinarith

/-- `C131_period`: both objects are detected, and the period completes. -/
example {chol : Chol} (hchol : IsLlt chol) {solve : Solver} (hs : IsOptimalSolver solve) :
    ∃ (rd : ℝ → FP) (m' : Manager MotObj) (a : AssociationMap), period solve
        (euclideanScore (fun s t => rd (s.euclid t)) fun s t => rd (s.euclid t)) gateAtTen ciVisitor makeTrack2
        (fun o => predict2 o 10 (unscentedTransform chol 1 2 1) (unscentedTransform chol 1 2 1))
        [.inl (gateTrack 1000 ⟨[2, 2]⟩), .inl (gateTrack 0 ⟨[2]⟩)] gateManager = (m', .ok a) := by
  have hpi := Real.pi_gt_three
  have hpi' := Real.pi_lt_d2
  have hcut := yawCut_bounds
  obtain ⟨rd, hrd⟩ := exists_rounding
  have hP : ∀ x u, (gateTrack x u).covariance.PosDef := fun x u => Matrix.PosDef.diagonal fun i => by norm_num
  have hhalf : (Angle.ofRad (π / 2)).getAngle = π / 2 :=
    Angle.getAngle_ofRad_of_range ⟨by linarith, by linarith⟩
  have h7 : √(7 * ((1 : ℝ) / 10) ^ 2) ≤ 1 / 2 := by
    rw [Real.sqrt_le_left (by norm_num)]; norm_num
  have hp : ∀ x u, predict2 (.inl (gateTrack x u) : MotObj) 10 (unscentedTransform chol 1 2 1)
      (unscentedTransform chol 1 2 1) = .ok (.inl (gateTrack x u)) := by
    intro x u
    have h : predict (gateTrack x u) 10 (defaultUt chol) = .ok (gateTrack x u) :=
      C41_ctrv_partial hchol (gateTrack x u) (Angle.valid_ofRad _) (hP x u)
        (by simp only [gateTrack, hhalf, diagonal_apply_eq]; linarith)
        (by simp only [gateTrack, hhalf, diagonal_apply_eq]; linarith)
    rw [defaultUt, predict] at h
    rw [predict2, propagate2]
    generalize propagate 10 (unscentedTransform chol 1 2 1) (gateTrack x u) = z at h ⊢
    rcases z with ⟨q, ⟨⟩ | _ | _⟩
    · cases h; rfl
    · cases h
    · cases h
  have hfar : ∀ u v, 1000 ≤ poseGap (objPose (.inl (gateTrack 0 u))) (objPose (.inl (gateTrack 1000 v))) := by
    intro u v
    refine Real.le_sqrt_of_sq_le ?_
    simp [objPose, gateTrack]
  set label : Uuid → ℕ := fun u => u.value.length with hlabel
  set world : ℕ → Fin 3 → ℝ := fun n => if n = 1 then objPose (.inl (gateTrack 0 ⟨[1]⟩))
    else objPose (.inl (gateTrack 1000 ⟨[1]⟩)) with hworld
  set ds : List MotObj := [.inl (gateTrack 1000 ⟨[2, 2]⟩), .inl (gateTrack 0 ⟨[2]⟩)] with hds
  have mt₁ : .inl (gateTrack 0 ⟨[1]⟩) ∈ gateManager.getAllTracks := List.mem_cons_self
  have mt₂ : .inl (gateTrack 1000 ⟨[1, 1]⟩) ∈ gateManager.getAllTracks := List.mem_cons_of_mem _ List.mem_cons_self
  have md₂ : .inl (gateTrack 1000 ⟨[2, 2]⟩) ∈ ds := List.mem_cons_self
  have md₁ : .inl (gateTrack 0 ⟨[2]⟩) ∈ ds := List.mem_cons_of_mem _ List.mem_cons_self
  have k1 : ∀ o ∈ gateManager.getAllTracks, Follows 1 2 1 10 3 o (world (label (TrackOps.uuid o))) := by
    simp only [gateManager_tracks, List.mem_cons, List.not_mem_nil, or_false, forall_eq_or_imp, forall_eq]
    exact ⟨gateTrack_follows_now 0 ⟨[1]⟩, gateTrack_follows_now 1000 ⟨[1, 1]⟩⟩
  have k2 : ∀ d ∈ ds, Follows 1 2 1 10 3 d (world (label (TrackOps.uuid d))) := by
    simp only [hds, List.mem_cons, List.not_mem_nil, or_false, forall_eq_or_imp, forall_eq]
    exact ⟨gateTrack_follows_now 1000 ⟨[2, 2]⟩, gateTrack_follows_now 0 ⟨[2]⟩⟩
  have k3 : ∀ o ∈ gateManager.getAllTracks, ∀ d ∈ ds, label (TrackOps.uuid o) = label (TrackOps.uuid d) →
      o.isLeft = d.isLeft := by
    simp only [gateManager_tracks, hds, List.mem_cons, List.not_mem_nil, or_false, forall_eq_or_imp, forall_eq]
    exact ⟨⟨fun _ => rfl, fun _ => rfl⟩, fun _ => rfl, fun _ => rfl⟩
  have k4 : ∀ o ∈ gateManager.getAllTracks, ∀ d ∈ ds, label (TrackOps.uuid o) ≠ label (TrackOps.uuid d) →
      1000 ≤ poseGap (world (label (TrackOps.uuid o))) (world (label (TrackOps.uuid d))) := by
    simp only [gateManager_tracks, hds, List.mem_cons, List.not_mem_nil, or_false, forall_eq_or_imp, forall_eq]
    refine ⟨⟨fun _ => hfar _ _, fun h => absurd rfl h⟩, fun h => absurd rfl h, fun _ => ?_⟩
    refine (hfar ⟨[1]⟩ ⟨[1]⟩).trans (le_of_eq ?_)
    rw [poseGap_eq, poseDistance_comm, ← poseGap_eq]
    rfl
  have ht : List.Forall₂ (fun o o' => predict2 o 10 (unscentedTransform chol 1 2 1)
      (unscentedTransform chol 1 2 1) = .ok o') gateManager.getAllTracks gateManager.getAllTracks := by
    rw [gateManager_tracks]
    exact .cons (hp _ _) (.cons (hp _ _) .nil)
  have hd : List.Forall₂ (fun o o' => predict2 o 10 (unscentedTransform chol 1 2 1)
      (unscentedTransform chol 1 2 1) = .ok o') ds ds := .cons (hp _ _) (.cons (hp _ _) .nil)
  have hone : ∀ o, ∃ x, Only gateManager.getAllTracks label o x := by
    intro o
    by_cases h1 : o = 1
    · subst h1
      refine ⟨some (.inl (gateTrack 0 ⟨[1]⟩)), fun x => ?_⟩
      rw [gateManager_tracks]
      constructor
      · rintro ⟨hx, hl⟩
        rcases List.mem_cons.1 hx with rfl | hx
        · rfl
        · rw [List.mem_singleton.1 hx] at hl
          exact absurd hl (by show ¬ 2 = 1; decide)
      · rintro rfl
        exact ⟨List.mem_cons_self, rfl⟩
    by_cases h2 : o = 2
    · subst h2
      refine ⟨some (.inl (gateTrack 1000 ⟨[1, 1]⟩)), fun x => ?_⟩
      rw [gateManager_tracks]
      constructor
      · rintro ⟨hx, hl⟩
        rcases List.mem_cons.1 hx with rfl | hx
        · exact absurd hl (by show ¬ 1 = 2; decide)
        · exact List.mem_singleton.1 hx
      · rintro rfl
        exact ⟨List.mem_cons_of_mem _ List.mem_cons_self, rfl⟩
    · refine ⟨none, fun x hx => ?_⟩
      rw [gateManager_tracks] at hx
      rcases List.mem_cons.1 hx with rfl | hx
      · exact fun h => h1 h.symm
      · rw [List.mem_singleton.1 hx]
        exact fun h => h2 h.symm
  have hci : ∀ x u y v, (ciVisitor (.inl (gateTrack x u)) (.inl (gateTrack y v))).IsOk := by
    intro x u y v
    simp only [ciVisitor, fusePair_posDef (gateTrack x u) (gateTrack y v) (hP x u) (hP y v)]
    trivial
  have hD : ds.map (fun x => label (TrackOps.uuid x)) = [2, 1] := rfl
  obtain ⟨m', a, h, -⟩ := C131_period hchol (u := 1 / 2) (rd := rd) (gate := gateAtTen) (g := 10) zero_le_one zero_le_one
    gateManager_reachable (by simp) ht hd k1 k2 k3 k4 (by norm_num) (by norm_num) (fun x hx => .inl (hrd x hx))
    (fun _ => rfl) (by norm_num) (by norm_num) (by norm_num) hone (by rw [hD]; decide)
    (.inl ⟨_, mt₁, _, md₁, _, mt₂, _, md₂, rfl, rfl, by show 2 ≠ 1; decide⟩)
    (by rw [gateManager_tracks]; simp [hds]) hs (by
      simp only [gateManager_tracks, hds, List.mem_cons, List.not_mem_nil, or_false, forall_eq_or_imp, forall_eq]
      exact ⟨⟨fun _ => hci _ _ _ _, fun _ => hci _ _ _ _⟩, fun _ => hci _ _ _ _, fun _ => hci _ _ _ _⟩)
  exact ⟨rd, m', a, h⟩

end Mot.Props
