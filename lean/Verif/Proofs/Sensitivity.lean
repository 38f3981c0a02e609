import Verif.Props.Motion
import Verif.Proofs.Displacement
import Mathlib.Analysis.Calculus.MeanValue
import Mathlib.Analysis.Complex.Basic
import Mathlib.Analysis.SpecialFunctions.Trigonometric.Angle
/-!
# How predictions depend on the state
-/

namespace Mot

open Real

private theorem norm_pair_le {a b K : ℝ} (hK : 0 ≤ K) (h : a ^ 2 + b ^ 2 ≤ K ^ 2) :
    ‖(a : ℂ) + b * Complex.I‖ ≤ K := by
  rw [Complex.norm_add_mul_I]
  exact (Real.sqrt_le_sqrt h).trans_eq (Real.sqrt_sq hK)

/-- two velocities -/
theorem velocity_diff {A B θ θ' δ : ℝ} (hδ : SameDir (θ' - θ) δ) :
    ‖((A * cos θ' - B * cos θ : ℝ) : ℂ) + ((A * sin θ' - B * sin θ : ℝ) : ℂ) * Complex.I‖ ≤
      |A - B| + |B| * |δ| := by
  obtain ⟨k, hk⟩ := hδ
  have hc : cos (θ' - θ) = cos δ := by
    rw [hk]; exact Real.cos_add_int_mul_two_pi δ k
  have e : ((A * cos θ' - B * cos θ : ℝ) : ℂ) + ((A * sin θ' - B * sin θ : ℝ) : ℂ) * Complex.I =
      ((((A - B) * cos θ' : ℝ) : ℂ) + (((A - B) * sin θ' : ℝ) : ℂ) * Complex.I) +
      (((B * (cos θ' - cos θ) : ℝ) : ℂ) + ((B * (sin θ' - sin θ) : ℝ) : ℂ) * Complex.I) := by
    push_cast; ring
  rw [e]
  refine (norm_add_le _ _).trans (add_le_add (norm_pair_le (abs_nonneg _) (le_of_eq ?_))
    (norm_pair_le (by positivity) ?_))
  · rw [sq_abs]
    linear_combination (A - B) ^ 2 * Real.cos_sq_add_sin_sq θ'
  · have h1 := Real.one_sub_sq_div_two_le_cos (x := δ)
    rw [← hc, Real.cos_sub] at h1
    have h2 : (cos θ' - cos θ) ^ 2 + (sin θ' - sin θ) ^ 2 ≤ δ ^ 2 := by
      nlinarith [Real.cos_sq_add_sin_sq θ', Real.cos_sq_add_sin_sq θ]
    calc _ = B ^ 2 * ((cos θ' - cos θ) ^ 2 + (sin θ' - sin θ) ^ 2) := by ring
      _ ≤ B ^ 2 * δ ^ 2 := mul_le_mul_of_nonneg_left h2 (sq_nonneg B)
      _ = _ := by rw [mul_pow, sq_abs, sq_abs]

/-- two motions -/
theorem TurnMotion.near {x y v ψ ω a x' y' v' ψ' ω' a' δ : ℝ} {X Y X' Y' : ℝ → ℝ}
    (h : TurnMotion x y v ψ ω a X Y) (h' : TurnMotion x' y' v' ψ' ω' a' X' Y')
    (hδ : SameDir (ψ' - ψ) δ) (t : ℝ) :
    √((X' t - X t - (x' - x)) ^ 2 + (Y' t - Y t - (y' - y)) ^ 2) ≤
      |t| * |v' - v| + t ^ 2 / 2 * |a' - a| + (|v| * |t| + |a| * t ^ 2 / 2) * |δ| +
        (|v| * t ^ 2 / 2 + |a| * |t| ^ 3 / 3) * |ω' - ω| := by
  obtain ⟨σ, hσ, ht⟩ : ∃ σ : ℝ, |σ| = 1 ∧ t = σ * |t| := by
    rcases le_total 0 t with h0 | h0
    · exact ⟨1, abs_one, by rw [abs_of_nonneg h0, one_mul]⟩
    · exact ⟨-1, by rw [abs_neg, abs_one], by rw [abs_of_nonpos h0]; ring⟩
  have hσ2 : σ ^ 2 = 1 := by rw [← sq_abs, hσ, one_pow]
  let F : ℝ → ℂ := fun u => ((X' (σ * u) - X (σ * u) - (x' - x) : ℝ) : ℂ) +
    ((Y' (σ * u) - Y (σ * u) - (y' - y) : ℝ) : ℂ) * Complex.I
  let F' : ℝ → ℂ := fun u =>
    ((((v' + a' * (σ * u)) * cos (ψ' + ω' * (σ * u)) - (v + a * (σ * u)) * cos (ψ + ω * (σ * u))) * σ : ℝ) : ℂ) +
    ((((v' + a' * (σ * u)) * sin (ψ' + ω' * (σ * u)) - (v + a * (σ * u)) * sin (ψ + ω * (σ * u))) * σ : ℝ) : ℂ) *
      Complex.I
  have hF : ∀ u, HasDerivAt F (F' u) u := by
    intro u
    have hr : HasDerivAt (fun u : ℝ => σ * u) σ u := by simpa using (hasDerivAt_id u).const_mul σ
    have h1 := (((h'.velX (σ * u)).comp u hr).sub ((h.velX (σ * u)).comp u hr)).sub_const (x' - x)
    have h2 := (((h'.velY (σ * u)).comp u hr).sub ((h.velY (σ * u)).comp u hr)).sub_const (y' - y)
    have h3 := h1.ofReal_comp.add (h2.ofReal_comp.mul_const Complex.I)
    refine h3.congr_deriv ?_
    simp only [F']
    push_cast
    ring
  let B : ℝ → ℝ := fun u => u * |v' - v| + u ^ 2 / 2 * |a' - a| + (|v| * u + |a| * u ^ 2 / 2) * |δ| +
    (|v| * u ^ 2 / 2 + |a| * u ^ 3 / 3) * |ω' - ω|
  let B' : ℝ → ℝ := fun u => |v' - v| + u * |a' - a| + (|v| + |a| * u) * (|δ| + |ω' - ω| * u)
  have hB : ∀ u, HasDerivAt B (B' u) u := by
    intro u
    have i1 := hasDerivAt_id u
    have i2 : HasDerivAt (fun u : ℝ => u ^ 2) (2 * u) u := by simpa using hasDerivAt_pow 2 u
    have i3 : HasDerivAt (fun u : ℝ => u ^ 3) (3 * u ^ 2) u := by simpa using hasDerivAt_pow 3 u
    have h1 := i1.mul_const |v' - v|
    have h2 := (i2.div_const 2).mul_const |a' - a|
    have h3 := ((i1.const_mul |v|).add ((i2.const_mul |a|).div_const 2)).mul_const |δ|
    have h4 := (((i2.const_mul |v|).div_const 2).add ((i3.const_mul |a|).div_const 3)).mul_const |ω' - ω|
    refine (((h1.add h2).add h3).add h4).congr_deriv ?_
    simp only [B']
    ring
  have key := image_norm_le_of_norm_deriv_right_le_deriv_boundary (f := F) (f' := F') (a := 0) (b := |t|)
    (B := B) (B' := B')
    (fun u _ => (hF u).continuousAt.continuousWithinAt) (fun u _ => (hF u).hasDerivWithinAt)
    (by simp [F, B, h.startX, h.startY, h'.startX, h'.startY]) hB (by
      intro u hu
      have hu0 : 0 ≤ u := hu.1
      have hd : SameDir (ψ' + ω' * (σ * u) - (ψ + ω * (σ * u))) (δ + (ω' - ω) * (σ * u)) := by
        obtain ⟨k, hk⟩ := hδ
        exact ⟨k, by linear_combination hk⟩
      have hv := velocity_diff (A := v' + a' * (σ * u)) (B := v + a * (σ * u)) hd
      have e : F' u = (((((v' + a' * (σ * u)) * cos (ψ' + ω' * (σ * u)) -
          (v + a * (σ * u)) * cos (ψ + ω * (σ * u))) : ℝ) : ℂ) +
        ((((v' + a' * (σ * u)) * sin (ψ' + ω' * (σ * u)) -
          (v + a * (σ * u)) * sin (ψ + ω * (σ * u))) : ℝ) : ℂ) * Complex.I) * (σ : ℂ) := by
        simp only [F']; push_cast; ring
      have hσu : |σ * u| = u := by rw [abs_mul, hσ, one_mul, abs_of_nonneg hu0]
      rw [e, norm_mul, Complex.norm_real, Real.norm_eq_abs, hσ, mul_one]
      refine hv.trans ?_
      have b1 : |v' + a' * (σ * u) - (v + a * (σ * u))| ≤ |v' - v| + u * |a' - a| := by
        rw [show v' + a' * (σ * u) - (v + a * (σ * u)) = (v' - v) + (a' - a) * (σ * u) by ring]
        refine (abs_add_le _ _).trans (le_of_eq ?_)
        rw [abs_mul, hσu, mul_comm u]
      have b2 : |v + a * (σ * u)| ≤ |v| + |a| * u := by
        refine (abs_add_le _ _).trans (le_of_eq ?_)
        rw [abs_mul, hσu]
      have b3 : |δ + (ω' - ω) * (σ * u)| ≤ |δ| + |ω' - ω| * u := by
        refine (abs_add_le _ _).trans (le_of_eq ?_)
        rw [abs_mul, hσu]
      exact add_le_add b1 (mul_le_mul b2 b3 (abs_nonneg _) (by positivity)))
    (Set.right_mem_Icc.2 (abs_nonneg t))
  have e1 : ‖F |t|‖ = √((X' t - X t - (x' - x)) ^ 2 + (Y' t - Y t - (y' - y)) ^ 2) := by
    simp only [F]
    rw [← ht, Complex.norm_add_mul_I]
  rw [e1] at key
  refine key.trans (le_of_eq ?_)
  simp only [B]
  rw [sq_abs]

/-- the motion that the code computes, with the turn rate it uses -/
theorem CtrvState.effective (s : CtrvState) : ∃ ω, |ω - s.yawRate| ≤ 1 / 2 ^ 1022 ∧
    (Admissible s.yawRate → ω = s.yawRate) ∧
    TurnMotion s.x s.y s.v s.yaw.getAngle ω 0 (fun t => (s.next t).x) (fun t => (s.next t).y) := by
  by_cases h : unitsEq s.yawRate 0
  · refine ⟨0, ?_, fun ha => (admissible_iff.1 ha h).symm, ?_⟩
    · rw [zero_sub, abs_neg]
      exact (unitsEq_zero_iff.1 h).le
    · have h0 := (Props.C45_ctrv_ode { s with yawRate := 0 } (Or.inl rfl)).1
      simp only [fun t => (CtrvState.next_straight (s := { s with yawRate := 0 }) unitsEq_zero_zero t).1,
        fun t => (CtrvState.next_straight (s := { s with yawRate := 0 }) unitsEq_zero_zero t).2] at h0
      simp only [fun t => (CtrvState.next_straight h t).1, fun t => (CtrvState.next_straight h t).2]
      exact h0
  · exact ⟨s.yawRate, by rw [sub_self, abs_zero]; positivity, fun _ => rfl,
      (Props.C45_ctrv_ode s (admissible_iff.2 fun h' => absurd h' h)).1⟩

theorem CtraState.effective (s : CtraState) : ∃ ω, |ω - s.yawRate| ≤ 1 / 2 ^ 1022 ∧
    (Admissible s.yawRate → ω = s.yawRate) ∧
    TurnMotion s.x s.y s.v s.yaw.getAngle ω s.a (fun t => (s.next t).x) (fun t => (s.next t).y) := by
  by_cases h : unitsEq s.yawRate 0
  · refine ⟨0, ?_, fun ha => (admissible_iff.1 ha h).symm, ?_⟩
    · rw [zero_sub, abs_neg]
      exact (unitsEq_zero_iff.1 h).le
    · have h0 := (Props.C47_ctra_ode { s with yawRate := 0 } (Or.inl rfl)).1
      simp only [fun t => (CtraState.next_straight (s := { s with yawRate := 0 }) unitsEq_zero_zero t).1,
        fun t => (CtraState.next_straight (s := { s with yawRate := 0 }) unitsEq_zero_zero t).2] at h0
      simp only [fun t => (CtraState.next_straight h t).1, fun t => (CtraState.next_straight h t).2]
      exact h0
  · exact ⟨s.yawRate, by rw [sub_self, abs_zero]; positivity, fun _ => rfl,
      (Props.C47_ctra_ode s (admissible_iff.2 fun h' => absurd h' h)).1⟩

theorem rate_diff {ω ω' e e' : ℝ} (h : |e - ω| ≤ 1 / 2 ^ 1022) (h' : |e' - ω'| ≤ 1 / 2 ^ 1022) :
    |e' - e| ≤ |ω' - ω| + 1 / 2 ^ 1021 := by
  have h2 : (1 : ℝ) / 2 ^ 1021 = 1 / 2 ^ 1022 + 1 / 2 ^ 1022 := by
    have := pow_succ (2 : ℝ) 1021
    rw [show 1021 + 1 = 1022 from rfl] at this
    rw [this, ← add_div]
    field_simp
    ring
  generalize (1 : ℝ) / 2 ^ 1022 = d at *
  generalize (1 : ℝ) / 2 ^ 1021 = d' at *
  rw [show e' - e = (e' - ω') + ((ω' - ω) + -(e - ω)) by ring]
  refine (abs_add_le _ _).trans ?_
  have := abs_add_le (ω' - ω) (-(e - ω))
  rw [abs_neg] at this
  linarith

set_option exponentiation.threshold 2000

theorem near_ctrv (s r : CtrvState) (t : ℝ) {δ : ℝ}
    (hδ : SameDir (r.yaw.getAngle - s.yaw.getAngle) δ) :
    √(((r.next t).x - (s.next t).x - (r.x - s.x)) ^ 2 +
      ((r.next t).y - (s.next t).y - (r.y - s.y)) ^ 2) ≤
      |t| * |r.v - s.v| + 0 * |r.v - s.v| + |s.v| * |t| * |δ| +
        |s.v| * t ^ 2 / 2 * (|r.yawRate - s.yawRate| + 1 / 2 ^ 1021) := by
  obtain ⟨e, he, -, hs⟩ := s.effective
  obtain ⟨e', he', -, hr⟩ := r.effective
  refine (hs.near hr hδ t).trans ?_
  have := mul_le_mul_of_nonneg_left (rate_diff he he') (show 0 ≤ |s.v| * t ^ 2 / 2 by positivity)
  generalize (1 : ℝ) / 2 ^ 1021 = d at *
  rw [sub_zero, abs_zero]
  linarith

theorem near_ctra (s r : CtraState) (t : ℝ) {δ : ℝ}
    (hδ : SameDir (r.yaw.getAngle - s.yaw.getAngle) δ) :
    √(((r.next t).x - (s.next t).x - (r.x - s.x)) ^ 2 +
      ((r.next t).y - (s.next t).y - (r.y - s.y)) ^ 2) ≤
      |t| * |r.v - s.v| + t ^ 2 / 2 * |r.a - s.a| + (|s.v| * |t| + |s.a| * t ^ 2 / 2) * |δ| +
        (|s.v| * t ^ 2 / 2 + |s.a| * |t| ^ 3 / 3) * (|r.yawRate - s.yawRate| + 1 / 2 ^ 1021) := by
  obtain ⟨e, he, -, hs⟩ := s.effective
  obtain ⟨e', he', -, hr⟩ := r.effective
  refine (hs.near hr hδ t).trans ?_
  have := mul_le_mul_of_nonneg_left (rate_diff he he')
    (show 0 ≤ |s.v| * t ^ 2 / 2 + |s.a| * |t| ^ 3 / 3 by positivity)
  generalize (1 : ℝ) / 2 ^ 1021 = d at *
  linarith

section unscented
open Matrix Spec
variable {S : Type} {n : ℕ} [MotionModel S n] [MotionLaws S n]

omit [MotionLaws S n] in
/-- a mean without the state itself -/
theorem sigmaMean_centred (s : S) (L : Matrix (Fin n) (Fin n) ℝ) {N : ℝ} (hN : 0 < N) (hn : 0 < n)
    (f : S → ℝ) (hf : f s = 0) :
    sigmaMean s L N f = n / N * sigmaMean s (√(N / n) • L) n f := by
  have hn' : (0 : ℝ) < n := by exact_mod_cast hn
  have e : ∀ j, √(n : ℝ) • (√(N / n) • L).col j = √N • L.col j := by
    intro j
    funext i
    simp only [Pi.smul_apply, Matrix.col_apply, Matrix.smul_apply, smul_eq_mul]
    rw [← mul_assoc, ← Real.sqrt_mul hn'.le, mul_div_cancel₀ _ hn'.ne']
  unfold sigmaMean
  simp only [e, hf, mul_zero, zero_add]
  field_simp

omit [MotionLaws S n] in
/-- the mean size of a deviation -/
theorem sigmaMean_dev (s : S) {L P : Matrix (Fin n) (Fin n) ℝ} (hL : L * Lᵀ = P) (hn : 0 < n)
    {i : Fin n} (g : S → ℝ) (hg : ∀ v : Fin n → ℝ,
      |g (MotionModel.add s (MotionModel.ofVec v))| ≤ |v i| ∧
      |g (MotionModel.sub s (MotionModel.ofVec v))| ≤ |v i|) :
    sigmaMean s L n (fun p => |g p|) ≤ √(P i i) := by
  have hn' : (0 : ℝ) < n := by exact_mod_cast hn
  have hM := sigmaMean_isAverage s L hn' le_rfl
  refine (hM.abs_le g).trans (Real.sqrt_le_sqrt ?_)
  have e : P i i = ∑ j, L i j ^ 2 := by
    rw [← hL, mul_apply]
    exact Finset.sum_congr rfl fun j _ => by rw [transpose_apply]; ring
  unfold sigmaMean
  rw [sub_self, zero_div, zero_mul, zero_add, e]
  have hs : ∀ j, g (MotionModel.add s (MotionModel.ofVec (√(n : ℝ) • L.col j))) ^ 2 +
      g (MotionModel.sub s (MotionModel.ofVec (√(n : ℝ) • L.col j))) ^ 2 ≤ 2 * n * L i j ^ 2 := by
    intro j
    obtain ⟨h1, h2⟩ := hg (√(n : ℝ) • L.col j)
    have h3 := sq_le_sq.2 h1
    have h4 := sq_le_sq.2 h2
    rw [Pi.smul_apply, smul_eq_mul, Matrix.col_apply, mul_pow, Real.sq_sqrt hn'.le] at h3 h4
    linarith
  calc _ ≤ 1 / (2 * (n : ℝ)) * ∑ j, 2 * n * L i j ^ 2 :=
        mul_le_mul_of_nonneg_left (Finset.sum_le_sum fun j _ => hs j) (by positivity)
    _ = _ := by rw [← Finset.mul_sum]; field_simp

theorem abs_toReal_le {x δ : ℝ} (h : SameDir x δ) : |(x : Real.Angle).toReal| ≤ |δ| := by
  have e : (x : Real.Angle) = (δ : Real.Angle) := by
    obtain ⟨k, hk⟩ := h
    rw [Real.Angle.angle_eq_iff_two_pi_dvd_sub]
    exact ⟨k, by rw [hk]; ring⟩
  rw [e]
  by_cases hd : -π < δ ∧ δ ≤ π
  · rw [Real.Angle.toReal_coe_eq_self_iff.2 hd]
  · refine (Real.Angle.abs_toReal_le_pi _).trans ?_
    rw [not_and_or, not_lt, not_le] at hd
    rcases hd with hd | hd
    · exact (by linarith : π ≤ -δ).trans (neg_le_abs δ)
    · exact hd.le.trans (le_abs_self δ)

theorem sameDir_toReal (x : ℝ) : SameDir x (x : Real.Angle).toReal := by
  obtain ⟨k, hk⟩ := Real.Angle.angle_eq_iff_two_pi_dvd_sub.1
    (Real.Angle.coe_toReal (x : Real.Angle)).symm
  exact ⟨k, by linear_combination hk⟩

/-- If the step depends on the state with sensitivities `ck`, `cl`, `cy`, `cw`, the predicted
position is near that of the state. -/
theorem ukfPredict_near {chol : Chol} (hchol : IsLlt chol) (s : S)
    {P : Matrix (Fin n) (Fin n) ℝ} (hP : P.PosDef) {dt α β κ : ℝ} (hN : 0 < α ^ 2 * (n + κ))
    {i₀ i₁ k l y w : Fin n} (h0 : i₀.1 ≠ 3) (h1 : i₁.1 ≠ 3) (hk : k.1 ≠ 3) (hl : l.1 ≠ 3)
    (hy : y.1 = 3) (hw : w.1 ≠ 3) {ck cl cy cw e : ℝ} (hck : 0 ≤ ck) (hcl : 0 ≤ cl) (hcy : 0 ≤ cy)
    (hcw : 0 ≤ cw)
    (hb : ∀ (p : S) (δ : ℝ), SameDir (MotionModel.toVec p y - MotionModel.toVec s y) δ →
      √((MotionModel.toVec (MotionModel.next p dt) i₀ - MotionModel.toVec (MotionModel.next s dt) i₀ -
          (MotionModel.toVec p i₀ - MotionModel.toVec s i₀)) ^ 2 +
        (MotionModel.toVec (MotionModel.next p dt) i₁ - MotionModel.toVec (MotionModel.next s dt) i₁ -
          (MotionModel.toVec p i₁ - MotionModel.toVec s i₁)) ^ 2) ≤
      ck * |MotionModel.toVec p k - MotionModel.toVec s k| +
        cl * |MotionModel.toVec p l - MotionModel.toVec s l| + cy * |δ| +
        cw * (|MotionModel.toVec p w - MotionModel.toVec s w| + e)) :
    ∃ x C, ukfPredict chol s P dt α β κ = .ok (MotionModel.ofVec x, C) ∧
      √((x i₀ - MotionModel.toVec (MotionModel.next s dt) i₀) ^ 2 +
        (x i₁ - MotionModel.toVec (MotionModel.next s dt) i₁) ^ 2) ≤
        √(n / (α ^ 2 * (n + κ))) * (ck * √(P k k) + cl * √(P l l) + cy * √(P y y) + cw * √(P w w)) +
          n / (α ^ 2 * (n + κ)) * (cw * e) := by
  obtain ⟨x, C, h, hx⟩ := ukfPredict_entry chol s P dt α β κ hN
  refine ⟨x, C, h, ?_⟩
  generalize α ^ 2 * (n + κ) = N at hN hx ⊢
  have hn : 0 < n := lt_of_lt_of_le (by norm_num) (MotionLaws.four (S := S))
  have hn' : (0 : ℝ) < n := by exact_mod_cast hn
  set L' : Matrix (Fin n) (Fin n) ℝ := √(N / n) • chol n P with hL'
  have hLP : L' * L'ᵀ = (N / n) • P := by
    rw [hL', transpose_smul, smul_mul, Matrix.mul_smul, (hchol n P hP).factor, smul_smul,
      Real.mul_self_sqrt (by positivity)]
  have hM := sigmaMean_isAverage s L' hn' le_rfl
  have hc : ∀ i : Fin n, i.1 ≠ 3 → x i - MotionModel.toVec (MotionModel.next s dt) i =
      n / N * sigmaMean s L' n fun p => MotionModel.toVec (MotionModel.next p dt) i -
        MotionModel.toVec (MotionModel.next s dt) i - (MotionModel.toVec p i - MotionModel.toVec s i) := by
    intro i hi
    rw [← sigmaMean_centred s (chol n P) hN hn _ (by ring), hx i hi]
    have hent := sigmaMean_entry s (chol n P) hN hi
    unfold sigmaMean at hent ⊢
    have e1 : ∀ (a b : Fin n → ℝ) (c d : ℝ), ∑ j, (a j - c - (b j - d)) = ∑ j, a j - ∑ j, b j - n * (c - d) := by
      intro a b c d
      rw [Finset.sum_sub_distrib, Finset.sum_sub_distrib, Finset.sum_sub_distrib, Finset.sum_const,
        Finset.sum_const, Finset.card_univ, Fintype.card_fin, nsmul_eq_mul, nsmul_eq_mul]
      ring
    rw [Finset.sum_add_distrib] at hent ⊢
    rw [Finset.sum_add_distrib, e1, e1]
    have hN' := hN.ne'
    field_simp at hent ⊢
    linear_combination hent
  have hdev : ∀ i : Fin n, i.1 ≠ 3 →
      sigmaMean s L' n (fun p => |MotionModel.toVec p i - MotionModel.toVec s i|) ≤ √(N / n * P i i) := by
    intro i hi
    have := sigmaMean_dev s hLP hn (i := i) (fun p => MotionModel.toVec p i - MotionModel.toVec s i) (by
      intro v
      rw [(sigma_entry s v hi).1, (sigma_entry s v hi).2]
      constructor
      · rw [add_sub_cancel_left]
      · rw [sub_sub_cancel_left, abs_neg])
    rwa [Matrix.smul_apply, smul_eq_mul] at this
  let g : S → ℝ := fun p => ((MotionModel.toVec p y - MotionModel.toVec s y : ℝ) : Real.Angle).toReal
  have hgy : sigmaMean s L' n (fun p => |g p|) ≤ √(N / n * P y y) := by
    have := sigmaMean_dev s hLP hn (i := y) g (by
      intro v
      have a1 := MotionLaws.toVec_add s v y
      have a2 := MotionLaws.toVec_sub s v y
      rw [if_pos hy] at a1 a2
      constructor
      · refine abs_toReal_le ?_
        have := a1.sub (SameDir.refl (MotionModel.toVec s y))
        rwa [Pi.add_apply, add_sub_cancel_left] at this
      · rw [← abs_neg (v y)]
        refine abs_toReal_le ?_
        have := a2.sub (SameDir.refl (MotionModel.toVec s y))
        rwa [Pi.sub_apply, sub_sub_cancel_left] at this)
    rwa [Matrix.smul_apply, smul_eq_mul] at this
  rw [hc i₀ h0, hc i₁ h1, mul_pow, mul_pow, ← mul_add, Real.sqrt_mul (by positivity),
    Real.sqrt_sq (by positivity)]
  have hroot : ∀ q : ℝ, n / N * √(N / n * q) = √(n / N) * √q := by
    intro q
    rw [Real.sqrt_mul (by positivity), ← mul_assoc]
    congr 1
    have : N / n = (n / N)⁻¹ := by rw [inv_div]
    rw [this, Real.sqrt_inv]
    have hp : 0 < √((n : ℝ) / N) := Real.sqrt_pos.2 (by positivity)
    have := Real.mul_self_sqrt (show 0 ≤ (n : ℝ) / N by positivity)
    generalize (n : ℝ) / N = r at hp this ⊢
    rw [mul_inv_eq_iff_eq_mul₀ hp.ne', this]
  have hbound : √((sigmaMean s L' n fun p => MotionModel.toVec (MotionModel.next p dt) i₀ -
        MotionModel.toVec (MotionModel.next s dt) i₀ -
        (MotionModel.toVec p i₀ - MotionModel.toVec s i₀)) ^ 2 +
      (sigmaMean s L' n fun p => MotionModel.toVec (MotionModel.next p dt) i₁ -
        MotionModel.toVec (MotionModel.next s dt) i₁ -
        (MotionModel.toVec p i₁ - MotionModel.toVec s i₁)) ^ 2) ≤
      ck * √(N / n * P k k) + cl * √(N / n * P l l) + cy * √(N / n * P y y) +
        (cw * √(N / n * P w w) + cw * e) := by
    refine (hM.norm_le _ _).trans ((hM.mono _ (fun p =>
      ck * |MotionModel.toVec p k - MotionModel.toVec s k| +
        cl * |MotionModel.toVec p l - MotionModel.toVec s l| + cy * |g p| +
        (cw * |MotionModel.toVec p w - MotionModel.toVec s w| + cw * e)) fun p => ?_).trans ?_)
    · rw [← mul_add]
      exact hb p (g p) (sameDir_toReal _)
    · rw [hM.add, hM.add, hM.add, hM.add, hM.mul, hM.mul, hM.mul, hM.mul, hM.const]
      gcongr
      · exact hdev k hk
      · exact hdev l hl
      · exact hdev w hw
  calc _ ≤ n / N * (ck * √(N / n * P k k) + cl * √(N / n * P l l) + cy * √(N / n * P y y) +
        (cw * √(N / n * P w w) + cw * e)) := mul_le_mul_of_nonneg_left hbound (by positivity)
    _ = _ := by
      linear_combination ck * hroot (P k k) + cl * hroot (P l l) + cy * hroot (P y y) + cw * hroot (P w w)

end unscented

end Mot
