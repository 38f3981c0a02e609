import Verif.Proofs.CoversCtra
import Verif.Props.Covers
/-!
# C130 for CTRA objects: the truth may leave the uncertainty in position
-/

namespace Mot.Props

open Mot Matrix Spec Real

/-- a CTRA object at `10 s` that moves in direction π/2 at the constant speed `V`, with uncorrelated uncertainties -/
noncomputable def northboundCtra (V : ℝ) (d : Fin 6 → ℝ) : DynObj CtraState CtraCov :=
  ⟨10, ⟨0, 0, V, Angle.ofRad (π / 2), 0, 0⟩, diagonal d, ⟨[1]⟩, .unknown⟩

private theorem north_default_ctra {chol : Chol} (hchol : IsLlt chol) {d : Fin 6 → ℝ} (hd : ∀ i, 0 < d i) (V T : ℝ) :
    ∃ p, predict (northboundCtra V d) (10 + T) (defaultUt chol) = .ok p ∧ p.state.x = 0 ∧ p.covariance 0 0 =
      d 0 + (V * T * sin (√8 * √(d 3))) ^ 2 / 8 + aside V (√8 * √(d 4)) T ^ 2 / 8 := by
  obtain ⟨x, C, h, hx, hC⟩ := straight_predict_ctra hchol hd V T
  refine ⟨_, (C37_swapped chol 1 2 1 (10 + T) (northboundCtra V d)).2 (CtraState.ofVec x) C ?_, hx, hC⟩
  show ukfPredict chol _ _ (10 + T - 10) 1 1 2 = _
  rw [add_sub_cancel_left]
  exact h

private theorem sqrt8_bounds : (5 / 2 : ℝ) < √8 ∧ √8 < 3 := by
  constructor
  · rw [Real.lt_sqrt (by norm_num)]; norm_num
  · rw [Real.sqrt_lt' (by norm_num)]; norm_num

/-- C130: not so in position, for CTRA objects (see `C130_lost`). -/
theorem C130_lost_ctra {chol : Chol} (hchol : IsLlt chol) {V T : ℝ} (hV : 0 < V) (hT : 0 < T) (hT' : T ≤ 10 ^ 6) (k : ℝ) :
    ∃ (d : Fin 6 → ℝ) (t : CtraState) (e : Fin 6 → ℝ) (p : DynObj CtraState CtraCov), (∀ i, 0 < d i) ∧
      t.toVec = (northboundCtra V d).state.toVec + e ∧ Covers (diagonal d) 1 .univ e ∧
      predict (northboundCtra V d) (10 + T) (defaultUt chol) = .ok p ∧ p.covariance.PosDef ∧
      k ^ 2 * p.covariance 0 0 < ((t.next T).x - p.state.x) ^ 2 := by
  obtain ⟨h7, h7'⟩ := sqrt8_bounds
  have hpi := Real.pi_gt_three
  have hpi' := Real.pi_lt_four
  have hD : 0 < V ^ 2 * T ^ 2 := by positivity
  set ε : ℝ := V ^ 2 * T ^ 2 / (16 * (k ^ 2 + 1) * (1 + V ^ 2 * T ^ 2)) with hε
  have hε0 : 0 < ε := by positivity
  set w : ℝ := 2 * π / (√8 * T) with hw
  have hw0 : 0 < w := by positivity
  set d : Fin 6 → ℝ := ![ε, ε, ε, ε, w ^ 2, ε] with hd
  have hd0 : ∀ i, 0 < d i := by
    intro i
    fin_cases i
    · exact hε0
    · exact hε0
    · exact hε0
    · exact hε0
    · exact pow_pos hw0 2
    · exact hε0
  have hε1 : ε ≤ 1 := by
    rw [hε, div_le_one (by positivity)]
    nlinarith [sq_nonneg k]
  obtain ⟨p, h, hx, hC⟩ := north_default_ctra hchol hd0 V T
  obtain ⟨p', h', hpd⟩ := C115_one_radian_ctra hchol (o := northboundCtra V d) (d := d) rfl hd0 hε1 (10 + T)
  rw [h] at h'
  cases h'
  have hs : √(d 4) = w := Real.sqrt_sq hw0.le
  refine ⟨d, ⟨0, 0, V, Angle.ofRad (π / 2), w, 0⟩, Pi.single 4 √(d 4), p, hd0, ?_, covers_diagonal hd0 4, h, hpd, ?_⟩
  · rw [hs]
    funext i
    fin_cases i <;> simp [northboundCtra, CtraState.toVec]
  · have hturn : aside V (√8 * √(d 4)) T = 0 := aside_turn V (by rw [hs, hw]; field_simp)
    rw [hturn] at hC
    have hC' : p.covariance 0 0 ≤ ε * (1 + V ^ 2 * T ^ 2) := by
      have h1 : |sin (√8 * √ε)| ≤ |√8 * √ε| := Real.abs_sin_le_abs
      have h2 := sq_le_sq.2 h1
      rw [mul_pow √8, Real.sq_sqrt (by norm_num : (0:ℝ) ≤ 8), Real.sq_sqrt hε0.le] at h2
      rw [hC, show d 0 = ε from rfl, show d 3 = ε from rfl]
      have h3 := mul_le_mul_of_nonneg_left h2 hD.le
      nlinarith
    have hne : ¬ unitsEq w 0 := by
      have hw1 : 1 / 10 ^ 6 ≤ w := by
        rw [hw, le_div_iff₀ (by positivity)]
        nlinarith
      have hmin : dblMin ≤ 1 / 10 ^ 6 := by
        unfold dblMin
        exact one_div_le_one_div_of_le (by positivity)
          (le_trans (by norm_num) (pow_le_pow_right₀ (by norm_num : (1:ℝ) ≤ 2) (show 20 ≤ 1022 by norm_num)))
      have heps : dblEpsilon ≤ 1 := by
        unfold dblEpsilon
        norm_num
      rintro (h1 | h1)
      · rw [sub_zero, add_zero, abs_of_pos hw0] at h1
        nlinarith
      · rw [sub_zero, abs_of_pos hw0] at h1
        linarith
    have hθ : w * T = 2 * π / √8 := by rw [hw]; field_simp
    have hθ1 : π / 2 ≤ 2 * π / √8 := by
      rw [le_div_iff₀ (by positivity)]
      nlinarith
    have hθ2 : 2 * π / √8 ≤ π + π / 2 := by
      rw [div_le_iff₀ (by positivity)]
      nlinarith
    have hcos : cos (w * T) ≤ 0 := by
      rw [hθ]
      exact cos_nonpos_of_pi_div_two_le_of_le hθ1 hθ2
    have hwT : w * T ≤ 4 := by
      rw [hθ, div_le_iff₀ (by positivity)]
      linarith
    have haside : V * T / 4 ≤ -aside V w T := by
      unfold aside
      rw [if_neg hne]
      have h1 : T / 4 ≤ 1 / w := by
        rw [div_le_div_iff₀ (by norm_num) hw0]
        linarith
      calc V * T / 4 = V * (T / 4) * 1 := by ring
        _ ≤ V * (1 / w) * (1 - cos (w * T)) := by
            refine mul_le_mul (mul_le_mul_of_nonneg_left h1 hV.le) (by linarith) (by norm_num) (by positivity)
        _ = _ := by ring
    have hD2 : V ^ 2 * T ^ 2 / 16 ≤ aside V w T ^ 2 := by
      have := pow_le_pow_left₀ (by positivity) haside 2
      rw [neg_sq] at this
      linarith [this, show (V * T / 4) ^ 2 = V ^ 2 * T ^ 2 / 16 by ring]
    rw [ctra_next_x_north, zero_add, hx, sub_zero]
    refine lt_of_lt_of_le ?_ hD2
    refine lt_of_le_of_lt (mul_le_mul_of_nonneg_left hC' (sq_nonneg k)) ?_
    have e1 : ε * (1 + V ^ 2 * T ^ 2) = V ^ 2 * T ^ 2 / (16 * (k ^ 2 + 1)) := by
      rw [hε]; field_simp
    rw [e1, ← mul_div_assoc, div_lt_div_iff₀ (by positivity) (by norm_num)]
    nlinarith [sq_nonneg k]

/-- an instance: ten standard deviations after a tenth of a second at 5 m/s -/
example {chol : Chol} (hchol : IsLlt chol) : ∃ (d : Fin 6 → ℝ) (t : CtraState) (p : DynObj CtraState CtraCov),
    predict (northboundCtra 5 d) (10 + 1 / 10) (defaultUt chol) = .ok p ∧
      10 ^ 2 * p.covariance 0 0 < ((t.next (1 / 10)).x - p.state.x) ^ 2 := by
  obtain ⟨d, t, -, p, -, -, -, h, -, h'⟩ := C130_lost_ctra hchol (V := 5) (T := 1 / 10) (by norm_num) (by norm_num)
    (by norm_num) 10
  exact ⟨d, t, p, h, h'⟩

/-- C130, for CTRA objects: however small the uncertainty `σ` of the heading (at most `π / √8`), and at every speed, a truth one standard
deviation away in heading alone is more than one standard deviation from the predicted x coordinate, if the other
uncertainties are small enough. -/
theorem C130_heading_lost_ctra {chol : Chol} (hchol : IsLlt chol) {V T σ : ℝ} (hV : 0 < V) (hT : 0 < T) (hσ : 0 < σ)
    (hσ' : σ ≤ π / √8) :
    ∃ ε > 0, ∀ d : Fin 6 → ℝ, (∀ i, 0 < d i) → d 3 = σ ^ 2 → d 0 ≤ ε → d 4 ≤ ε →
      ∃ (t : CtraState) (e : Fin 6 → ℝ) (p : DynObj CtraState CtraCov),
        SameUpToTurns t.toVec ((northboundCtra V d).state.toVec + e) ∧ Covers (diagonal d) 1 .univ e ∧
        predict (northboundCtra V d) (10 + T) (defaultUt chol) = .ok p ∧
        p.covariance 0 0 < ((t.next T).x - p.state.x) ^ 2 := by
  obtain ⟨h8, h8'⟩ := sqrt8_bounds
  have hpi := Real.pi_gt_three
  have h88 : √8 ^ 2 = (8 : ℝ) := Real.sq_sqrt (by norm_num)
  have hr : √8 * σ ≤ π := by
    rw [le_div_iff₀ (by positivity)] at hσ'
    linarith
  have hr0 : 0 < √8 * σ := by positivity
  have hconc : sin (√8 * σ) / √8 < sin σ := by
    have h1 : (1 : ℝ) / √8 < 1 := by rw [div_lt_one (by positivity)]; linarith
    obtain ⟨-, hcv⟩ := strictConcaveOn_sin_Icc
    have := hcv (x := 0) ⟨le_rfl, pi_pos.le⟩ (y := √8 * σ) ⟨hr0.le, hr⟩ hr0.ne
      (a := 1 - 1 / √8) (b := 1 / √8) (by linarith) (by positivity) (by ring)
    simp only [smul_eq_mul, sin_zero, mul_zero, zero_add] at this
    rw [show 1 / √8 * (√8 * σ) = σ by field_simp] at this
    linarith [show sin (√8 * σ) / √8 = 1 / √8 * sin (√8 * σ) by ring]
  have hs0 : 0 ≤ sin (√8 * σ) := sin_nonneg_of_nonneg_of_le_pi hr0.le hr
  have hgap : sin (√8 * σ) ^ 2 / 8 < sin σ ^ 2 := by
    have := pow_lt_pow_left₀ hconc (by positivity) two_ne_zero
    rwa [div_pow, h88] at this
  set g : ℝ := V ^ 2 * T ^ 2 * (sin σ ^ 2 - sin (√8 * σ) ^ 2 / 8) with hg
  have hg0 : 0 < g := mul_pos (by positivity) (by linarith)
  refine ⟨g / (2 * (1 + V ^ 2 * T ^ 4)), by positivity, fun d hd h3 hε0 hε4 => ?_⟩
  obtain ⟨p, h, hx, hC⟩ := north_default_ctra hchol hd V T
  have hs : √(d 3) = σ := by rw [h3, Real.sqrt_sq hσ.le]
  have hng : (Angle.ofRad (π / 2)).getAngle = π / 2 :=
    Angle.getAngle_ofRad_of_range ⟨by positivity, by linarith⟩
  refine ⟨⟨0, 0, V, Angle.ofRad (π / 2 + σ), 0, 0⟩, Pi.single 3 √(d 3), p, ?_, covers_diagonal hd 3, h, ?_⟩
  · intro i
    fin_cases i
    · simp [northboundCtra, CtraState.toVec]
    · simp [northboundCtra, CtraState.toVec]
    · simp [northboundCtra, CtraState.toVec]
    · show SameDir (Angle.ofRad (π / 2 + σ)).getAngle ((Angle.ofRad (π / 2)).getAngle + (Pi.single 3 √(d 3) : Fin 6 → ℝ) 3)
      rw [hng, Pi.single_eq_same, hs]
      exact Angle.sameDir_getAngle _
    · simp [northboundCtra, CtraState.toVec]
    · simp [northboundCtra, CtraState.toVec]
  · rw [ctra_next_x, if_pos unitsEq_zero_zero, add_comm (π / 2), cos_add_pi_div_two, hx, hC, hs]
    have ha := aside_sq_le V (√8 * √(d 4)) T
    rw [mul_pow √8, h88, Real.sq_sqrt (hd 4).le] at ha
    rw [le_div_iff₀ (by positivity)] at hε0 hε4
    have e1 : (0 + V * -sin σ * T - 0) ^ 2 = (V * T * sin (√8 * σ)) ^ 2 / 8 + g := by rw [hg]; ring
    rw [e1]
    have h4 := mul_pos (hd 4) (show 0 < V ^ 2 * T ^ 4 by positivity)
    have h0 := mul_pos (hd 0) (show 0 < V ^ 2 * T ^ 4 by positivity)
    have := hd 0
    have := hd 4
    nlinarith

/-- the hypotheses, with half a degree or so of uncertainty in heading -/
example {chol : Chol} (hchol : IsLlt chol) : ∃ ε > 0, ∀ d : Fin 6 → ℝ, (∀ i, 0 < d i) → d 3 = (1 / 100) ^ 2 → d 0 ≤ ε →
    d 4 ≤ ε → ∃ (t : CtraState) (p : DynObj CtraState CtraCov),
      predict (northboundCtra 5 d) (10 + 1 / 10) (defaultUt chol) = .ok p ∧
        p.covariance 0 0 < ((t.next (1 / 10)).x - p.state.x) ^ 2 := by
  have hpi := Real.pi_gt_three
  obtain ⟨h8, h8'⟩ := sqrt8_bounds
  obtain ⟨ε, h, h'⟩ := C130_heading_lost_ctra hchol (V := 5) (T := 1 / 10) (σ := 1 / 100) (by norm_num) (by norm_num)
    (by norm_num) (by rw [le_div_iff₀ (by positivity)]; linarith)
  refine ⟨ε, h, fun d h0 h3 hx h4 => ?_⟩
  obtain ⟨t, -, p, -, -, h1, h2⟩ := h' d h0 h3 hx h4
  exact ⟨t, p, h1, h2⟩

end Mot.Props
