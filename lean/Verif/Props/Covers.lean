import Verif.Proofs.Covers
import Verif.Props.Singular
/-!
# C130: whether the truth stays within the uncertainty when objects are predicted
-/

namespace Mot.Props

open Mot Matrix Spec Real

/-- C130 for CTRV objects: if the error of the state is at most `k` standard deviations in every direction,
then so is that of the predicted state in every direction of the plane of speed and turn rate, for all
parameters and all headings. -/
theorem C130_ctrv {chol : Chol} (hchol : IsLlt chol) {o p : DynObj CtrvState CtrvCov} (hP : o.covariance.PosDef)
    {α β κ time k : ℝ} (h : predict o time (unscentedTransform chol α β κ) = .ok p) {t : CtrvState} {e : Fin 5 → ℝ}
    (ht : SameUpToTurns t.toVec (o.state.toVec + e)) (hk : Covers o.covariance k .univ e) :
    ∃ f, SameUpToTurns (t.next (time - o.timestamp)).toVec (p.state.toVec + f) ∧ Covers p.covariance k {2, 4} f := by
  obtain ⟨h1, h2, h3, h4, h5, h6⟩ := C84_ctrv hchol hP h
  have t2 : t.v = o.state.v + e 2 := ht 2
  have t4 : t.yawRate = o.state.yawRate + e 4 := ht 4
  refine ⟨(t.next (time - o.timestamp)).toVec - p.state.toVec, ?_, covers_map (A := 1) hk ?_ ?_⟩
  · rw [add_sub_cancel]; exact sameUpToTurns_refl _
  · rintro i (rfl | rfl)
    · show t.v - p.state.v = (1 *ᵥ e) 2
      rw [one_mulVec, t2, h1]; ring
    · show t.yawRate - p.state.yawRate = (1 *ᵥ e) 4
      rw [one_mulVec, t4, h2]; ring
  · rw [one_mul, transpose_one, mul_one]
    rintro i (rfl | rfl) j (rfl | rfl)
    · exact h3
    · exact h4
    · exact h5
    · exact h6

/-- C130 for CTRA objects: speed, turn rate and acceleration. -/
theorem C130_ctra {chol : Chol} (hchol : IsLlt chol) {o p : DynObj CtraState CtraCov} (hP : o.covariance.PosDef)
    {α β κ time k : ℝ} (h : predict o time (unscentedTransform chol α β κ) = .ok p) {t : CtraState} {e : Fin 6 → ℝ}
    (ht : SameUpToTurns t.toVec (o.state.toVec + e)) (hk : Covers o.covariance k .univ e) :
    ∃ f, SameUpToTurns (t.next (time - o.timestamp)).toVec (p.state.toVec + f) ∧
      Covers p.covariance k {2, 4, 5} f := by
  obtain ⟨h1, h2, h3, h22, h24, h25, h44, h45, h55⟩ := C84_ctra hchol hP h
  obtain ⟨hs, -⟩ := C42_valid_covariance _ _ _ _ _ _ _ _ _ (predict_ok h)
  have sym : ∀ i j, p.covariance i j = p.covariance j i := fun i j => congrFun (congrFun hs j) i
  have symP : ∀ i j, o.covariance i j = o.covariance j i := fun i j => hP.1.apply j i
  generalize time - o.timestamp = dt at *
  have t2 : t.v = o.state.v + e 2 := ht 2
  have t4 : t.yawRate = o.state.yawRate + e 4 := ht 4
  have t5 : t.a = o.state.a + e 5 := ht 5
  refine ⟨(t.next dt).toVec - p.state.toVec, ?_, covers_map (A := ctraStep dt) hk ?_ ?_⟩
  · rw [add_sub_cancel]; exact sameUpToTurns_refl _
  · rw [ctraStep_mulVec]
    rintro i (rfl | rfl | rfl)
    · show t.v + t.a * dt - p.state.v = e 2 + dt * e 5
      rw [h1, t2, t5]; ring
    · show t.yawRate - p.state.yawRate = e 4
      rw [t4, h2]; ring
    · show t.a - p.state.a = e 5
      rw [t5, h3]; ring
  · simp only [sandwich_apply, ctraStep_mulVec]
    have e22 : p.covariance 2 2 = o.covariance 2 2 + dt * o.covariance 5 2 +
        dt * (o.covariance 2 5 + dt * o.covariance 5 5) := by rw [h22, symP 5 2]; ring
    have e24 : p.covariance 2 4 = o.covariance 2 4 + dt * o.covariance 5 4 := by rw [h24, symP 5 4]
    have e42 : p.covariance 4 2 = o.covariance 4 2 + dt * o.covariance 4 5 := by rw [sym, h24, symP 4 2]
    have e52 : p.covariance 5 2 = o.covariance 5 2 + dt * o.covariance 5 5 := by rw [sym, h25, symP 5 2]
    rintro i (rfl | rfl | rfl) j (rfl | rfl | rfl)
    · exact e22
    · exact e24
    · exact h25
    · exact e42
    · exact h44
    · exact h45
    · exact e52
    · exact (sym 5 4).trans (h45.trans (symP 4 5))
    · exact h55

private theorem heading_dir {a : Angle} {s w e e' c dt : ℝ} (ha : SameDir a.getAngle (s + e))
    (hc : SameDir c (s + dt * w)) :
    SameDir (a.add (Angle.ofRad ((w + e') * dt))).getAngle (c + (e + dt * e')) := by
  refine (next_yaw_sameDir a (w + e') dt ha).trans ?_
  have := (hc.add (SameDir.refl (e + dt * e'))).symm
  rwa [show s + dt * w + (e + dt * e') = s + e + dt * (w + e') by ring] at this

/-- C130, with the heading, for CTRV objects: if no sigma point leaves the headings from 0 to 3.14159265359 (`c` is
the expected heading, `r` the spread, as in C84), the error stays within `k` standard deviations in every direction
of speed, heading and turn rate; headings are compared up to full turns. -/
theorem C130_heading_ctrv {chol : Chol} (hchol : IsLlt chol) {o : DynObj CtrvState CtrvCov} (hP : o.covariance.PosDef)
    {α β κ time dt c r k : ℝ} (hdt : dt = time - o.timestamp) (hN : 0 < α ^ 2 * (5 + β))
    (hc : SameDir c (o.state.yaw.getAngle + dt * o.state.yawRate))
    (hr : r = √(α ^ 2 * (5 + β) * (o.covariance 3 3 + 2 * dt * o.covariance 3 4 + dt ^ 2 * o.covariance 4 4)))
    (h0 : r ≤ c) (h1 : c + r ≤ yawCut) {t : CtrvState} {e : Fin 5 → ℝ}
    (ht : SameUpToTurns t.toVec (o.state.toVec + e)) (hk : Covers o.covariance k .univ e) :
    ∃ p f, predict o time (unscentedTransform chol α β κ) = .ok p ∧
      SameUpToTurns (t.next dt).toVec (p.state.toVec + f) ∧ Covers p.covariance k {2, 3, 4} f := by
  obtain ⟨p, h, hy, h33, h34, h23⟩ := C84_heading_ctrv hchol hP (κ := κ) hdt hN hc hr h0 h1
  obtain ⟨hv, hw, h22, h24, h42, h44⟩ := C84_ctrv hchol hP h
  obtain ⟨hs, -⟩ := C42_valid_covariance _ _ _ _ _ _ _ _ _ (predict_ok h)
  have sym : ∀ i j, p.covariance i j = p.covariance j i := fun i j => congrFun (congrFun hs j) i
  have symP : ∀ i j, o.covariance i j = o.covariance j i := fun i j => hP.1.apply j i
  have t2 : t.v = o.state.v + e 2 := ht 2
  have t3 : SameDir t.yaw.getAngle (o.state.yaw.getAngle + e 3) := ht 3
  have t4 : t.yawRate = o.state.yawRate + e 4 := ht 4
  have hr0 : 0 ≤ r := hr ▸ Real.sqrt_nonneg _
  have hcut := yawCut_bounds
  have hpi := Real.pi_gt_three
  have hc' : p.state.yaw.getAngle = c := by
    rw [hy]
    exact Angle.getAngle_ofRad_of_range ⟨by linarith, by linarith⟩
  refine ⟨p, ![(t.next dt).x - p.state.x, (t.next dt).y - p.state.y, e 2, e 3 + dt * e 4, e 4], h, ?_,
    covers_map (A := ctrvStep dt) hk ?_ ?_⟩
  · intro i
    fin_cases i
    · show (t.next dt).x = p.state.x + ((t.next dt).x - p.state.x)
      ring
    · show (t.next dt).y = p.state.y + ((t.next dt).y - p.state.y)
      ring
    · show t.v = p.state.v + e 2
      rw [t2, hv]
    · show SameDir (t.yaw.add (Angle.ofRad (t.yawRate * dt))).getAngle (p.state.yaw.getAngle + (e 3 + dt * e 4))
      rw [hc', t4]
      exact heading_dir t3 hc
    · show t.yawRate = p.state.yawRate + e 4
      rw [t4, hw]
  · rw [ctrvStep_mulVec]
    rintro i (rfl | rfl | rfl) <;> rfl
  · simp only [sandwich_apply, ctrvStep_mulVec]
    have e33 : p.covariance 3 3 = o.covariance 3 3 + dt * o.covariance 4 3 +
        dt * (o.covariance 3 4 + dt * o.covariance 4 4) := by rw [h33, symP 4 3]; ring
    have e32 : p.covariance 3 2 = o.covariance 3 2 + dt * o.covariance 4 2 := by rw [sym, h23, symP 3 2, symP 4 2]
    have e43 : p.covariance 4 3 = o.covariance 4 3 + dt * o.covariance 4 4 := by rw [sym, h34, symP 4 3]
    rintro i (rfl | rfl | rfl) j (rfl | rfl | rfl)
    · exact h22
    · exact h23
    · exact h24
    · exact e32
    · exact e33
    · exact h34
    · exact h42
    · exact e43
    · exact h44

/-- C130, with the heading, for CTRA objects. -/
theorem C130_heading_ctra {chol : Chol} (hchol : IsLlt chol) {o : DynObj CtraState CtraCov} (hP : o.covariance.PosDef)
    {α β κ time dt c r k : ℝ} (hdt : dt = time - o.timestamp) (hN : 0 < α ^ 2 * (6 + β))
    (hc : SameDir c (o.state.yaw.getAngle + dt * o.state.yawRate))
    (hr : r = √(α ^ 2 * (6 + β) * (o.covariance 3 3 + 2 * dt * o.covariance 3 4 + dt ^ 2 * o.covariance 4 4)))
    (h0 : r ≤ c) (h1 : c + r ≤ yawCut) {t : CtraState} {e : Fin 6 → ℝ}
    (ht : SameUpToTurns t.toVec (o.state.toVec + e)) (hk : Covers o.covariance k .univ e) :
    ∃ p f, predict o time (unscentedTransform chol α β κ) = .ok p ∧
      SameUpToTurns (t.next dt).toVec (p.state.toVec + f) ∧ Covers p.covariance k {2, 3, 4, 5} f := by
  obtain ⟨p, h, hy, h33, h34, h23, h35⟩ := C84_heading_ctra hchol hP (κ := κ) hdt hN hc hr h0 h1
  obtain ⟨hv, hw, hac, h22, h24, h25, h44, h45, h55⟩ := C84_ctra hchol hP h
  rw [← hdt] at hv h22 h24 h25
  obtain ⟨hs, -⟩ := C42_valid_covariance _ _ _ _ _ _ _ _ _ (predict_ok h)
  have sym : ∀ i j, p.covariance i j = p.covariance j i := fun i j => congrFun (congrFun hs j) i
  have symP : ∀ i j, o.covariance i j = o.covariance j i := fun i j => hP.1.apply j i
  have t2 : t.v = o.state.v + e 2 := ht 2
  have t3 : SameDir t.yaw.getAngle (o.state.yaw.getAngle + e 3) := ht 3
  have t4 : t.yawRate = o.state.yawRate + e 4 := ht 4
  have t5 : t.a = o.state.a + e 5 := ht 5
  have hr0 : 0 ≤ r := hr ▸ Real.sqrt_nonneg _
  have hcut := yawCut_bounds
  have hpi := Real.pi_gt_three
  have hc' : p.state.yaw.getAngle = c := by
    rw [hy]
    exact Angle.getAngle_ofRad_of_range ⟨by linarith, by linarith⟩
  refine ⟨p, ![(t.next dt).x - p.state.x, (t.next dt).y - p.state.y, e 2 + dt * e 5, e 3 + dt * e 4, e 4, e 5], h, ?_,
    covers_map (A := ctraStep dt) hk ?_ ?_⟩
  · intro i
    fin_cases i
    · show (t.next dt).x = p.state.x + ((t.next dt).x - p.state.x)
      ring
    · show (t.next dt).y = p.state.y + ((t.next dt).y - p.state.y)
      ring
    · show t.v + t.a * dt = p.state.v + (e 2 + dt * e 5)
      rw [t2, t5, hv]; ring
    · show SameDir (t.yaw.add (Angle.ofRad (t.yawRate * dt))).getAngle (p.state.yaw.getAngle + (e 3 + dt * e 4))
      rw [hc', t4]
      exact heading_dir t3 hc
    · show t.yawRate = p.state.yawRate + e 4
      rw [t4, hw]
    · show t.a = p.state.a + e 5
      rw [t5, hac]
  · rw [ctraStep_mulVec]
    rintro i (rfl | rfl | rfl | rfl) <;> rfl
  · simp only [sandwich_apply, ctraStep_mulVec]
    have e22 : p.covariance 2 2 = o.covariance 2 2 + dt * o.covariance 5 2 +
        dt * (o.covariance 2 5 + dt * o.covariance 5 5) := by rw [h22, symP 5 2]; ring
    have e23 : p.covariance 2 3 = o.covariance 2 3 + dt * o.covariance 5 3 +
        dt * (o.covariance 2 4 + dt * o.covariance 5 4) := by rw [h23, symP 5 3, symP 5 4]; ring
    have e24 : p.covariance 2 4 = o.covariance 2 4 + dt * o.covariance 5 4 := by rw [h24, symP 5 4]
    have e32 : p.covariance 3 2 = o.covariance 3 2 + dt * o.covariance 4 2 +
        dt * (o.covariance 3 5 + dt * o.covariance 4 5) := by rw [sym, h23, symP 3 2, symP 4 2]
    have e33 : p.covariance 3 3 = o.covariance 3 3 + dt * o.covariance 4 3 +
        dt * (o.covariance 3 4 + dt * o.covariance 4 4) := by rw [h33, symP 4 3]; ring
    have e42 : p.covariance 4 2 = o.covariance 4 2 + dt * o.covariance 4 5 := by rw [sym, h24, symP 4 2]
    have e43 : p.covariance 4 3 = o.covariance 4 3 + dt * o.covariance 4 4 := by rw [sym, h34, symP 4 3]
    have e52 : p.covariance 5 2 = o.covariance 5 2 + dt * o.covariance 5 5 := by rw [sym, h25, symP 5 2]
    have e53 : p.covariance 5 3 = o.covariance 5 3 + dt * o.covariance 5 4 := by rw [sym, h35, symP 5 3, symP 5 4]
    rintro i (rfl | rfl | rfl | rfl) j (rfl | rfl | rfl | rfl)
    · exact e22
    · exact e23
    · exact e24
    · exact h25
    · exact e32
    · exact e33
    · exact h34
    · exact h35
    · exact e42
    · exact e43
    · exact h44
    · exact h45
    · exact e52
    · exact e53
    · exact (sym 5 4).trans (h45.trans (symP 4 5))
    · exact h55

/-- an object at `10 s` that moves in direction π/2 at the speed `V`, with uncorrelated uncertainties -/
noncomputable def northbound (V : ℝ) (d : Fin 5 → ℝ) : DynObj CtrvState CtrvCov :=
  ⟨10, ⟨0, 0, V, Angle.ofRad (π / 2), 0⟩, diagonal d, ⟨[1]⟩, .unknown⟩

private theorem north_default {chol : Chol} (hchol : IsLlt chol) {d : Fin 5 → ℝ} (hd : ∀ i, 0 < d i) (V T : ℝ) :
    ∃ p, predict (northbound V d) (10 + T) (defaultUt chol) = .ok p ∧ p.state.x = 0 ∧ p.covariance 0 0 =
      d 0 + (V * T * sin (√7 * √(d 3))) ^ 2 / 7 + aside V (√7 * √(d 4)) T ^ 2 / 7 := by
  obtain ⟨x, C, h, hx, hC⟩ := straight_predict hchol hd V T
  refine ⟨_, (C37_swapped chol 1 2 1 (10 + T) (northbound V d)).2 (CtrvState.ofVec x) C ?_, hx, hC⟩
  show ukfPredict chol _ _ (10 + T - 10) 1 1 2 = _
  rw [add_sub_cancel_left]
  exact h

private theorem sqrt7_bounds : (5 / 2 : ℝ) < √7 ∧ √7 < 3 := by
  constructor
  · rw [Real.lt_sqrt (by norm_num)]; norm_num
  · rw [Real.sqrt_lt' (by norm_num)]; norm_num

/-- C130: not so in position.  However large `k`, the speed and the duration up to a million seconds, there is an
object with an uncorrelated covariance and a truth one standard deviation from it (in turn rate alone), such that
the predicted covariance is positive definite and the moved truth is more than `k` standard deviations from the
predicted x coordinate. -/
theorem C130_lost {chol : Chol} (hchol : IsLlt chol) {V T : ℝ} (hV : 0 < V) (hT : 0 < T) (hT' : T ≤ 10 ^ 6) (k : ℝ) :
    ∃ (d : Fin 5 → ℝ) (t : CtrvState) (e : Fin 5 → ℝ) (p : DynObj CtrvState CtrvCov), (∀ i, 0 < d i) ∧
      t.toVec = (northbound V d).state.toVec + e ∧ Covers (diagonal d) 1 .univ e ∧
      predict (northbound V d) (10 + T) (defaultUt chol) = .ok p ∧ p.covariance.PosDef ∧
      k ^ 2 * p.covariance 0 0 < ((t.next T).x - p.state.x) ^ 2 := by
  obtain ⟨h7, h7'⟩ := sqrt7_bounds
  have hpi := Real.pi_gt_three
  have hpi' := Real.pi_lt_four
  have hD : 0 < V ^ 2 * T ^ 2 := by positivity
  set ε : ℝ := V ^ 2 * T ^ 2 / (16 * (k ^ 2 + 1) * (1 + V ^ 2 * T ^ 2)) with hε
  have hε0 : 0 < ε := by positivity
  set w : ℝ := 2 * π / (√7 * T) with hw
  have hw0 : 0 < w := by positivity
  set d : Fin 5 → ℝ := ![ε, ε, ε, ε, w ^ 2] with hd
  have hd0 : ∀ i, 0 < d i := by
    intro i
    fin_cases i
    · exact hε0
    · exact hε0
    · exact hε0
    · exact hε0
    · exact pow_pos hw0 2
  have hε1 : ε ≤ 1 := by
    rw [hε, div_le_one (by positivity)]
    nlinarith [sq_nonneg k]
  obtain ⟨p, h, hx, hC⟩ := north_default hchol hd0 V T
  obtain ⟨p', h', hpd⟩ := C115_one_radian hchol (o := northbound V d) (d := d) rfl hd0 hε1 (10 + T)
  rw [h] at h'
  cases h'
  have hs : √(d 4) = w := Real.sqrt_sq hw0.le
  refine ⟨d, ⟨0, 0, V, Angle.ofRad (π / 2), w⟩, Pi.single 4 √(d 4), p, hd0, ?_, covers_diagonal hd0 4, h, hpd, ?_⟩
  · rw [hs]
    funext i
    fin_cases i <;> simp [northbound, CtrvState.toVec]
  · have hturn : aside V (√7 * √(d 4)) T = 0 := aside_turn V (by rw [hs, hw]; field_simp)
    rw [hturn] at hC
    have hC' : p.covariance 0 0 ≤ ε * (1 + V ^ 2 * T ^ 2) := by
      have h1 : |sin (√7 * √ε)| ≤ |√7 * √ε| := Real.abs_sin_le_abs
      have h2 := sq_le_sq.2 h1
      rw [mul_pow √7, Real.sq_sqrt (by norm_num : (0:ℝ) ≤ 7), Real.sq_sqrt hε0.le] at h2
      rw [hC, show d 0 = ε from rfl, show d 3 = ε from rfl]
      have h3 := mul_le_mul_of_nonneg_left h2 hD.le
      nlinarith
    have hne : ¬ unitsEq w 0 := by
      have hw1 : 1 / 10 ^ 6 ≤ w := by
        rw [hw, le_div_iff₀ (by positivity)]
        nlinarith
      have hmin : dblMin ≤ 1 / 10 ^ 6 := by
        unfold dblMin
        exact one_div_le_one_div_of_le (by positivity)
          (le_trans (by norm_num) (pow_le_pow_right₀ (by norm_num : (1:ℝ) ≤ 2) (show 20 ≤ 1022 by norm_num)))
      have heps : dblEpsilon ≤ 1 := by
        unfold dblEpsilon
        norm_num
      rintro (h1 | h1)
      · rw [sub_zero, add_zero, abs_of_pos hw0] at h1
        nlinarith
      · rw [sub_zero, abs_of_pos hw0] at h1
        linarith
    have hθ : w * T = 2 * π / √7 := by rw [hw]; field_simp
    have hθ1 : π / 2 ≤ 2 * π / √7 := by
      rw [le_div_iff₀ (by positivity)]
      nlinarith
    have hθ2 : 2 * π / √7 ≤ π + π / 2 := by
      rw [div_le_iff₀ (by positivity)]
      nlinarith
    have hcos : cos (w * T) ≤ 0 := by
      rw [hθ]
      exact cos_nonpos_of_pi_div_two_le_of_le hθ1 hθ2
    have hwT : w * T ≤ 4 := by
      rw [hθ, div_le_iff₀ (by positivity)]
      linarith
    have haside : V * T / 4 ≤ -aside V w T := by
      unfold aside
      rw [if_neg hne]
      have h1 : T / 4 ≤ 1 / w := by
        rw [div_le_div_iff₀ (by norm_num) hw0]
        linarith
      calc V * T / 4 = V * (T / 4) * 1 := by ring
        _ ≤ V * (1 / w) * (1 - cos (w * T)) := by
            refine mul_le_mul (mul_le_mul_of_nonneg_left h1 hV.le) (by linarith) (by norm_num) (by positivity)
        _ = _ := by ring
    have hD2 : V ^ 2 * T ^ 2 / 16 ≤ aside V w T ^ 2 := by
      have := pow_le_pow_left₀ (by positivity) haside 2
      rw [neg_sq] at this
      linarith [this, show (V * T / 4) ^ 2 = V ^ 2 * T ^ 2 / 16 by ring]
    rw [next_x_north, zero_add, hx, sub_zero]
    refine lt_of_lt_of_le ?_ hD2
    refine lt_of_le_of_lt (mul_le_mul_of_nonneg_left hC' (sq_nonneg k)) ?_
    have e1 : ε * (1 + V ^ 2 * T ^ 2) = V ^ 2 * T ^ 2 / (16 * (k ^ 2 + 1)) := by
      rw [hε]; field_simp
    rw [e1, ← mul_div_assoc, div_lt_div_iff₀ (by positivity) (by norm_num)]
    nlinarith [sq_nonneg k]

/-- C130: however small the uncertainty `σ` of the heading (at most `π / √7`), and at every speed, a truth one standard
deviation away in heading alone is more than one standard deviation from the predicted x coordinate, if the other
uncertainties are small enough. -/
theorem C130_heading_lost {chol : Chol} (hchol : IsLlt chol) {V T σ : ℝ} (hV : 0 < V) (hT : 0 < T) (hσ : 0 < σ)
    (hσ' : σ ≤ π / √7) :
    ∃ ε > 0, ∀ d : Fin 5 → ℝ, (∀ i, 0 < d i) → d 3 = σ ^ 2 → d 0 ≤ ε → d 4 ≤ ε →
      ∃ (t : CtrvState) (e : Fin 5 → ℝ) (p : DynObj CtrvState CtrvCov),
        SameUpToTurns t.toVec ((northbound V d).state.toVec + e) ∧ Covers (diagonal d) 1 .univ e ∧
        predict (northbound V d) (10 + T) (defaultUt chol) = .ok p ∧
        p.covariance 0 0 < ((t.next T).x - p.state.x) ^ 2 := by
  obtain ⟨h7, h7'⟩ := sqrt7_bounds
  have hpi := Real.pi_gt_three
  have h77 : √7 ^ 2 = (7 : ℝ) := Real.sq_sqrt (by norm_num)
  have hr : √7 * σ ≤ π := by
    rw [le_div_iff₀ (by positivity)] at hσ'
    linarith
  have hr0 : 0 < √7 * σ := by positivity
  have hconc : sin (√7 * σ) / √7 < sin σ := by
    have h1 : (1 : ℝ) / √7 < 1 := by rw [div_lt_one (by positivity)]; linarith
    obtain ⟨-, hcv⟩ := strictConcaveOn_sin_Icc
    have := hcv (x := 0) ⟨le_rfl, pi_pos.le⟩ (y := √7 * σ) ⟨hr0.le, hr⟩ hr0.ne
      (a := 1 - 1 / √7) (b := 1 / √7) (by linarith) (by positivity) (by ring)
    simp only [smul_eq_mul, sin_zero, mul_zero, zero_add] at this
    rw [show 1 / √7 * (√7 * σ) = σ by field_simp] at this
    linarith [show sin (√7 * σ) / √7 = 1 / √7 * sin (√7 * σ) by ring]
  have hs0 : 0 ≤ sin (√7 * σ) := sin_nonneg_of_nonneg_of_le_pi hr0.le hr
  have hgap : sin (√7 * σ) ^ 2 / 7 < sin σ ^ 2 := by
    have := pow_lt_pow_left₀ hconc (by positivity) two_ne_zero
    rwa [div_pow, h77] at this
  set g : ℝ := V ^ 2 * T ^ 2 * (sin σ ^ 2 - sin (√7 * σ) ^ 2 / 7) with hg
  have hg0 : 0 < g := mul_pos (by positivity) (by linarith)
  refine ⟨g / (2 * (1 + V ^ 2 * T ^ 4)), by positivity, fun d hd h3 hε0 hε4 => ?_⟩
  obtain ⟨p, h, hx, hC⟩ := north_default hchol hd V T
  have hs : √(d 3) = σ := by rw [h3, Real.sqrt_sq hσ.le]
  have hng : (Angle.ofRad (π / 2)).getAngle = π / 2 :=
    Angle.getAngle_ofRad_of_range ⟨by positivity, by linarith⟩
  refine ⟨⟨0, 0, V, Angle.ofRad (π / 2 + σ), 0⟩, Pi.single 3 √(d 3), p, ?_, covers_diagonal hd 3, h, ?_⟩
  · intro i
    fin_cases i
    · simp [northbound, CtrvState.toVec]
    · simp [northbound, CtrvState.toVec]
    · simp [northbound, CtrvState.toVec]
    · show SameDir (Angle.ofRad (π / 2 + σ)).getAngle ((Angle.ofRad (π / 2)).getAngle + (Pi.single 3 √(d 3) : Fin 5 → ℝ) 3)
      rw [hng, Pi.single_eq_same, hs]
      exact Angle.sameDir_getAngle _
    · simp [northbound, CtrvState.toVec]
  · rw [ctrv_next_x, if_pos unitsEq_zero_zero, add_comm (π / 2), cos_add_pi_div_two, hx, hC, hs]
    have ha := aside_sq_le V (√7 * √(d 4)) T
    rw [mul_pow √7, h77, Real.sq_sqrt (hd 4).le] at ha
    rw [le_div_iff₀ (by positivity)] at hε0 hε4
    have e1 : (0 + V * -sin σ * T - 0) ^ 2 = (V * T * sin (√7 * σ)) ^ 2 / 7 + g := by rw [hg]; ring
    rw [e1]
    have h4 := mul_pos (hd 4) (show 0 < V ^ 2 * T ^ 4 by positivity)
    have h0 := mul_pos (hd 0) (show 0 < V ^ 2 * T ^ 4 by positivity)
    have := hd 0
    have := hd 4
    nlinarith

/-- hypotheses of the heading theorem, met by an object turning from 1.5 rad to 2 rad within a second with a truth
that differs in every variable -/
example {chol : Chol} (hchol : IsLlt chol) (o : DynObj CtrvState CtrvCov)
    (ho : o = ⟨10, ⟨0, 0, 5, Angle.ofRad (3 / 2), 1 / 2⟩, (1 / 100 : ℝ) • 1, ⟨[1]⟩, .pedestrian⟩) (t : CtrvState)
    (ht : t = ⟨1 / 10, 1 / 10, 5 + 1 / 10, Angle.ofRad (3 / 2 + 1 / 10), 1 / 2 + 1 / 10⟩) :
    ∃ p f, predict o 11 (defaultUt chol) = .ok p ∧ SameUpToTurns (t.next 1).toVec (p.state.toVec + f) ∧
      Covers p.covariance 3 {2, 3, 4} f := by
  have hpi := Real.pi_gt_three
  have hP : ((1 / 100 : ℝ) • 1 : CtrvCov).PosDef := PosDef.one.smul (by norm_num)
  have hg : (Angle.ofRad (3 / 2)).getAngle = 3 / 2 := Angle.getAngle_ofRad_of_range ⟨by norm_num, by linarith⟩
  subst ho ht
  refine C130_heading_ctrv hchol
    (o := ⟨10, ⟨0, 0, 5, Angle.ofRad (3 / 2), 1 / 2⟩, (1 / 100 : ℝ) • 1, ⟨[1]⟩, .pedestrian⟩)
    hP (α := 1) (β := 2) (κ := 1) (time := 11) (dt := 1) (c := 2) (r := √(7 * (1 / 100 + 1 / 100)))
    (e := fun _ => 1 / 10) (by norm_num) (by norm_num) (by rw [hg]; exact ⟨0, by norm_num⟩)
    (by congr 1; simp; norm_num) (by rw [Real.sqrt_le_left (by norm_num)]; norm_num) (by
      have : √(7 * (1 / 100 + 1 / 100) : ℝ) ≤ 1 := by rw [Real.sqrt_le_left (by norm_num)]; norm_num
      have := yawCut_bounds.1
      linarith) (fun i => ?_) (fun u _ => ?_)
  · fin_cases i
    · simp [CtrvState.toVec]
    · simp [CtrvState.toVec]
    · simp [CtrvState.toVec]
    · show SameDir (Angle.ofRad (3 / 2 + 1 / 10)).getAngle ((Angle.ofRad (3 / 2)).getAngle + 1 / 10)
      rw [hg]
      exact Angle.sameDir_getAngle _
    · simp [CtrvState.toVec]
  · simp only [dotProduct, smul_mulVec, one_mulVec, Fin.sum_univ_five, Pi.smul_apply, smul_eq_mul]
    nlinarith [sq_nonneg (u 0 - u 1), sq_nonneg (u 0 - u 2), sq_nonneg (u 0 - u 3), sq_nonneg (u 0 - u 4),
      sq_nonneg (u 1 - u 2), sq_nonneg (u 1 - u 3), sq_nonneg (u 1 - u 4), sq_nonneg (u 2 - u 3),
      sq_nonneg (u 2 - u 4), sq_nonneg (u 3 - u 4), sq_nonneg (u 0), sq_nonneg (u 1), sq_nonneg (u 2),
      sq_nonneg (u 3), sq_nonneg (u 4)]

/-- a car at 10 m/s, 10 s ahead: a truth one standard deviation away is more than a hundred of them away -/
example {chol : Chol} (hchol : IsLlt chol) : ∃ (d : Fin 5 → ℝ) (t : CtrvState) (p : DynObj CtrvState CtrvCov),
    (∀ i, 0 < d i) ∧ predict (northbound 10 d) 20 (defaultUt chol) = .ok p ∧
      100 ^ 2 * p.covariance 0 0 < ((t.next 10).x - p.state.x) ^ 2 := by
  obtain ⟨d, t, e, p, h0, -, -, h, -, hl⟩ := C130_lost hchol (V := 10) (T := 10) (by norm_num) (by norm_num)
    (by norm_num) 100
  norm_num at h
  exact ⟨d, t, p, h0, h, hl⟩

end Mot.Props
