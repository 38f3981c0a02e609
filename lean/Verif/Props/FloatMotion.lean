import Verif.Proofs.FloatMotion
import Mathlib.Analysis.Real.Pi.Bounds
/-!
# Prediction as it is computed (C89)
-/

namespace Mot.Props

open Mot Spec

/-- C89: the exact displacement of a CTRV object is the distance travelled, up to a factor between
1 - (ωt)²/24 and 1. -/
theorem C89_exact_displacement (s : CtrvState) (t : ℝ) :
    |s.v * t| * (1 - (s.yawRate * t) ^ 2 / 24) ≤
      Real.sqrt (((s.next t).x - s.x) ^ 2 + ((s.next t).y - s.y) ^ 2) := by
  by_cases h : unitsEq s.yawRate 0
  · obtain ⟨h1, h2⟩ := CtrvState.next_straight h t
    have e : ((s.next t).x - s.x) ^ 2 + ((s.next t).y - s.y) ^ 2 = (s.v * t) ^ 2 := by
      rw [h1, h2]
      have := Real.sin_sq_add_cos_sq s.yaw.getAngle
      linear_combination (s.v * t) ^ 2 * this
    rw [e, Real.sqrt_sq_eq_abs]
    have := abs_nonneg (s.v * t)
    have := sq_nonneg (s.yawRate * t)
    nlinarith
  · have h0 := ne_zero_of_not_unitsEq h
    obtain ⟨h1, h2⟩ := CtrvState.next_turn h t
    set ψ := s.yaw.getAngle
    set θ := s.yawRate * t with hθ
    have e : ((s.next t).x - s.x) ^ 2 + ((s.next t).y - s.y) ^ 2
        = (s.v / s.yawRate * (2 * Real.sin (θ / 2))) ^ 2 := by
      have hc : Real.cos θ = 1 - 2 * Real.sin (θ / 2) ^ 2 := by
        have := Real.cos_sq (θ / 2)
        have h4 := Real.sin_sq_add_cos_sq (θ / 2)
        rw [show 2 * (θ / 2) = θ by ring] at this
        linarith
      rw [h1, h2, Real.sin_add, Real.cos_add]
      have h3 := Real.sin_sq_add_cos_sq ψ
      have h4 := Real.sin_sq_add_cos_sq θ
      linear_combination (s.v / s.yawRate) ^ 2 * ((Real.sin θ ^ 2 + Real.cos θ ^ 2 -
        2 * Real.cos θ + 1) * h3 + h4) - 2 * (s.v / s.yawRate) ^ 2 * hc
    rw [e, Real.sqrt_sq_eq_abs, abs_mul (s.v / s.yawRate)]
    have h6 : |s.v * t| = |s.v / s.yawRate| * |θ| := by
      rw [hθ, ← abs_mul]; congr 1; field_simp
    rw [h6, mul_assoc]
    refine mul_le_mul_of_nonneg_left ?_ (abs_nonneg _)
    have h7 := Real.sin_ge_sub_cube (abs_nonneg (θ / 2))
    have h8 : Real.sin |θ / 2| ≤ |Real.sin (θ / 2)| := by
      rcases abs_cases (θ / 2) with ⟨h, -⟩ | ⟨h, -⟩ <;> rw [h]
      · exact le_abs_self _
      · rw [Real.sin_neg]; exact neg_le_abs _
    have h9 : |θ / 2| = |θ| / 2 := by rw [abs_div]; norm_num
    rw [abs_mul (2 : ℝ), abs_two]
    rw [h9] at h7 h8
    have h10 : θ ^ 2 = |θ| ^ 2 := (sq_abs θ).symm
    rw [h10]
    nlinarith

section
variable {m : Libm} (s : CtrvStateF m) {x y v w a : ℚ}

/-- a state whose members are finite `double`s, with sine and cosine of the heading defined -/
structure FiniteCtrv (s : CtrvStateF m) (x y v w a : ℚ) : Prop where
  hx : s.x = .fin x
  hy : s.y = .fin y
  hv : s.v = .fin v
  hw : s.yawRate = .fin w
  ha : m.getAngle s.yaw = .fin a
  dx : IsDouble x
  dy : IsDouble y
  dv : IsDouble v
  dw : IsDouble w
  da : IsDouble a
  hsin : ∃ q, m.sin (.fin a) = .fin q
  hcos : ∃ q, m.cos (.fin a) = .fin q

/-- the numbers of a state, as the accuracy statements use them -/
structure CtrvFields (s : CtrvStateF m) (x y v w a : ℚ) : Prop where
  hx : s.x = .fin x
  hy : s.y = .fin y
  hv : s.v = .fin v
  hw : s.yawRate = .fin w
  ha : m.getAngle s.yaw = .fin a
  dw : IsDouble w

theorem FiniteCtrv.fields {s : CtrvStateF m} {x y v w a : ℚ} (h : FiniteCtrv s x y v w a) :
    CtrvFields s x y v w a := ⟨h.hx, h.hy, h.hv, h.hw, h.ha, h.dw⟩

/-- C89: if the turn is too small to change the heading, the predicted position is the old one,
whatever the speed and the time step, as long as the quotient of speed and yaw rate does not
overflow; if it does the position is NaN. -/
theorem C89_absorbed (hs : FiniteCtrv s x y v w a) (hw : (2 : ℚ) ^ (-1022 : ℤ) ≤ |w|) (dt : FP)
    (hdt : FP.add binary64 (.fin a) (FP.mul binary64 (.fin w) dt) = .fin a) :
    (|v / w| < (2 ^ 54 - 1) * (2 : ℚ) ^ (970 : ℤ) →
      (s.next dt).x = .fin x ∧ (s.next dt).y = .fin y) ∧
    ((2 ^ 54 - 1) * (2 : ℚ) ^ (970 : ℤ) ≤ |v / w| →
      (s.next dt).x = .nan ∧ (s.next dt).y = .nan) := by
  obtain ⟨h1, h2⟩ := CtrvStateF.next_turn hs.dw hs.hw hw dt
  obtain ⟨p, hp⟩ := hs.hsin
  obtain ⟨q, hq⟩ := hs.hcos
  have hw0 : w ≠ 0 := by
    rintro rfl
    rw [abs_zero] at hw
    exact absurd hw (not_le.2 (Fmt.two_zpow_pos _))
  have hz : ∀ c : ℚ, FP.sub binary64 (.fin c) (.fin c) = .fin 0 := fun c => by
    show FP.ofRat binary64 (c - c) = _
    rw [sub_self, isDouble_zero.ofRat]
  have hdiv : FP.div binary64 (.fin v) (.fin w) = FP.ofRat binary64 (v / w) := by
    show (if w = 0 then _ else _) = _
    rw [if_neg hw0]
  have hov := binary64.overflow_iff (by decide) (by decide) (by decide +kernel) (by decide) (v / w)
  rw [hs.hx, hs.hv, hs.hw, hs.ha, hdt, hp, hz, hdiv] at h1
  rw [hs.hy, hs.hv, hs.hw, hs.ha, hdt, hq, hz, hdiv] at h2
  rw [h1, h2]
  constructor
  · intro h
    unfold FP.ofRat
    rw [if_pos (hov.2 h)]
    have e : FP.mul binary64 (FP.mul binary64 (.fin (binary64.round (v / w))) (.fin 0)) (.fin 1) =
        .fin 0 := by
      show FP.mul binary64 (FP.ofRat binary64 (_ * 0)) (.fin 1) = _
      rw [mul_zero, isDouble_zero.ofRat]
      show FP.ofRat binary64 (0 * 1) = _
      rw [zero_mul, isDouble_zero.ofRat]
    rw [e]
    constructor
    · show FP.ofRat binary64 (x + 0) = _
      rw [add_zero, hs.dx.ofRat]
    · show FP.ofRat binary64 (y - 0) = _
      rw [sub_zero, hs.dy.ofRat]
  · intro h
    unfold FP.ofRat
    rw [if_neg (fun h' => absurd (hov.1 h') (not_lt.2 h))]
    have e : ∀ b, FP.mul binary64 (FP.mul binary64 (.inf b) (.fin 0)) (.fin 1) = .nan := fun b => by
      show FP.mul binary64 (if (0 : ℚ) = 0 then .nan else .inf (b != decide ((0 : ℚ) < 0)))
        (.fin 1) = _
      rw [if_pos rfl]; rfl
    rw [e, add_nan, sub_nan]
    exact ⟨rfl, rfl⟩

/-- C89: it is too small if yaw rate times time step is below 2⁻⁵⁷ of the heading. -/
theorem C89_absorbed_if (da : IsDouble a) (ha : 1 / 2 ^ 100 ≤ |a|) {w dt : ℚ}
    (h : |w * dt| ≤ |a| / 2 ^ 57) :
    FP.add binary64 (.fin a) (FP.mul binary64 (.fin w) (.fin dt)) = .fin a := by
  have hpos : 0 < |a| := lt_of_lt_of_le (by norm_num) ha
  have hne : a ≠ 0 := abs_pos.1 hpos
  have hab : |a| < (2 : ℚ) ^ (1024 : ℤ) := by
    obtain ⟨_, _, -, -, h⟩ := da
    exact h
  have h1 := b64_std (w * dt)
  have h2 := abs_add_le (binary64.round (w * dt) - w * dt) (w * dt)
  rw [sub_add_cancel] at h2
  have h3 : |binary64.round (w * dt)| < |a| / 2 ^ 56 := by
    generalize |binary64.round (w * dt)| = A at *
    generalize |binary64.round (w * dt) - w * dt| = B at *
    generalize |w * dt| = C at *
    generalize |a| = D at *
    clear hab
    norm_num at *
    linarith
  have h4 : FP.mul binary64 (.fin w) (.fin dt) = .fin (binary64.round (w * dt)) := by
    refine if_pos (h3.trans (lt_of_le_of_lt ?_ hab))
    exact div_le_self hpos.le (by norm_num)
  rw [h4]
  exact da.absorb h3

/-- C89: a prediction with time step 0 keeps the position, except that it is NaN if the quotient of
speed and yaw rate overflows. -/
theorem C89_zero_step (hs : FiniteCtrv s x y v w a) :
    (|w| < (2 : ℚ) ^ (-1022 : ℤ) →
      (s.next (.fin 0)).x = .fin x ∧ (s.next (.fin 0)).y = .fin y ∨
      ¬ ∃ p q, FP.mul binary64 (.fin v) (m.cos (.fin a)) = .fin p ∧
        FP.mul binary64 (.fin v) (m.sin (.fin a)) = .fin q) ∧
    ((2 : ℚ) ^ (-1022 : ℤ) ≤ |w| → |v / w| < (2 ^ 54 - 1) * (2 : ℚ) ^ (970 : ℤ) →
      (s.next (.fin 0)).x = .fin x ∧ (s.next (.fin 0)).y = .fin y) ∧
    ((2 : ℚ) ^ (-1022 : ℤ) ≤ |w| → (2 ^ 54 - 1) * (2 : ℚ) ^ (970 : ℤ) ≤ |v / w| →
      (s.next (.fin 0)).x = .nan ∧ (s.next (.fin 0)).y = .nan) := by
  have hz : FP.add binary64 (.fin a) (FP.mul binary64 (.fin w) (.fin 0)) = .fin a := by
    have e : FP.mul binary64 (.fin w) (.fin 0) = .fin 0 := by
      show FP.ofRat binary64 (w * 0) = _
      rw [mul_zero, isDouble_zero.ofRat]
    rw [e]
    show FP.ofRat binary64 (a + 0) = _
    rw [add_zero, hs.da.ofRat]
  refine ⟨fun hw => ?_, fun hw => (C89_absorbed s hs hw _ hz).1, fun hw => (C89_absorbed s hs hw _ hz).2⟩
  rw [or_iff_not_imp_right, not_not]
  rintro ⟨p, q, hp, hq⟩
  obtain ⟨h1, h2⟩ := CtrvStateF.next_straight hs.dw hs.hw hw (.fin 0)
  rw [hs.hx, hs.hv, hs.ha, hp] at h1
  rw [hs.hy, hs.hv, hs.ha, hq] at h2
  have e : ∀ p : ℚ, FP.mul binary64 (.fin p) (.fin 0) = .fin 0 := fun p => by
    show FP.ofRat binary64 (p * 0) = _
    rw [mul_zero, isDouble_zero.ofRat]
  rw [h1, h2, e, e]
  constructor
  · show FP.ofRat binary64 (x + 0) = _
    rw [add_zero, hs.dx.ofRat]
  · show FP.ofRat binary64 (y + 0) = _
    rw [add_zero, hs.dy.ofRat]

/-- C89: in a turn the computed position differs from the exact one by at most 2⁻⁵³ of the
coordinate, 2⁻⁴⁸ of the turning radius and 3·2⁻⁵³ of the distance travelled. -/
theorem C89_accuracy_turn (hm : AccurateTrig m) (hs : CtrvFields s x y v w a) (ha : 0 ≤ a)
    (ha' : (a : ℝ) < 2 * Real.pi) (hx : |x| ≤ 2 ^ 200) (hy : |y| ≤ 2 ^ 200)
    (hw : (2 : ℚ) ^ (-1022 : ℤ) ≤ |w|) (hQ : |v / w| ≤ 2 ^ 200) (dt : ℚ) (hΘ : |w * dt| ≤ 2 ^ 19) :
    ∃ X Y : ℚ, (s.next (.fin dt)).x = .fin X ∧ (s.next (.fin dt)).y = .fin Y ∧
      |(X : ℝ) - (CtrvState.next ⟨x, y, v, Angle.ofRad a, w⟩ dt).x| ≤
        |(x : ℝ)| / 2 ^ 53 + |(v / w : ℝ)| / 2 ^ 48 + 3 * |(v * dt : ℝ)| / 2 ^ 53 + 1 / 2 ^ 194 ∧
      |(Y : ℝ) - (CtrvState.next ⟨x, y, v, Angle.ofRad a, w⟩ dt).y| ≤
        |(y : ℝ)| / 2 ^ 53 + |(v / w : ℝ)| / 2 ^ 48 + 3 * |(v * dt : ℝ)| / 2 ^ 53 + 1 / 2 ^ 194 := by
  obtain ⟨h1, h2⟩ := CtrvStateF.next_turn hs.dw hs.hw hw (.fin dt)
  rw [hs.hx, hs.hv, hs.hw, hs.ha] at h1
  rw [hs.hy, hs.hv, hs.hw, hs.ha] at h2
  have hw0 : w ≠ 0 := by
    rintro rfl
    rw [abs_zero] at hw
    exact absurd hw (not_le.2 (Fmt.two_zpow_pos _))
  have hw1 : (w : ℝ) ≠ 0 := by exact_mod_cast hw0
  have ha7 : |a| ≤ 7 := by
    rw [abs_of_nonneg ha]
    have := Real.pi_lt_d2
    have : (a : ℝ) ≤ 7 := by linarith
    exact_mod_cast this
  have hex := CtrvState.next_turn (s := ⟨x, y, v, Angle.ofRad a, w⟩) (fun h =>
    absurd ((unitsEq_rat w).1 h) (not_lt.2 hw)) dt
  rw [Angle.getAngle_ofRad_of_range ⟨by exact_mod_cast ha, ha'⟩] at hex
  obtain ⟨hex1, hex2⟩ := hex
  obtain ⟨r, r1, r2, r3⟩ := turn_fin hw0 hQ hΘ ha7 (f := m.sin) (F := Real.sin)
    Real.abs_sin_sub_sin_le Real.abs_sin_le_one (fun q hq => by
      obtain ⟨p, c, hp, -, hp', -⟩ := hm q hq
      exact ⟨p, hp, hp'⟩)
  obtain ⟨t, t1, t2, t3⟩ := turn_fin hw0 hQ hΘ ha7 (f := m.cos) (F := Real.cos)
    Real.abs_cos_sub_cos_le Real.abs_cos_le_one (fun q hq => by
      obtain ⟨p, c, -, hp, -, hp'⟩ := hm q hq
      exact ⟨c, hp, hp'⟩)
  have hQ' : |(v / w : ℝ)| ≤ 2 ^ 200 := by exact_mod_cast hQ
  have big : ∀ {r : ℚ}, |(r : ℝ)| ≤ 4 * |(v / w : ℝ)| + 1 / 2 ^ 190 → |r| ≤ 2 ^ 210 := by
    intro r h
    have : |(r : ℝ)| ≤ 2 ^ 210 := by
      norm_num at *
      linarith
    exact_mod_cast this
  rw [r1, (add_fin hx (big r3)).1] at h1
  rw [t1, (add_fin hy (big t3)).2] at h2
  refine ⟨_, _, h1, h2, ?_, ?_⟩
  · have h := sum_err (x := x) (X := (binary64.round (x + r) : ℚ)) (by simpa using b64_cast (x + r))
      r2 r3
    rw [hex1]
    refine h.trans ?_
    have e : |(v / w : ℝ)| * |(w * dt : ℝ)| = |(v * dt : ℝ)| := by
      rw [← abs_mul]; congr 1; field_simp
    rw [e]
    have := abs_nonneg (v / w : ℝ)
    norm_num
    linarith
  · have h := sum_err (x := y) (r := -t) (R := -(v / w * (Real.cos (a + w * dt) - Real.cos a)))
      (X := (binary64.round (y - t) : ℚ)) (by simpa [sub_eq_add_neg] using b64_cast (y - t))
      (by rw [neg_sub_neg, abs_sub_comm]; exact t2) (by rw [abs_neg]; exact t3)
    rw [hex2]
    rw [← sub_eq_add_neg] at h
    refine h.trans ?_
    have e : |(v / w : ℝ)| * |(w * dt : ℝ)| = |(v * dt : ℝ)| := by
      rw [← abs_mul]; congr 1; field_simp
    rw [e]
    have := abs_nonneg (v / w : ℝ)
    norm_num
    linarith

/-- C89: without turning it differs by at most 2⁻⁵³ of the coordinate and 7·2⁻⁵³ of the distance
travelled. -/
theorem C89_accuracy_straight (hm : AccurateTrig m) (hs : CtrvFields s x y v w a) (ha : 0 ≤ a)
    (ha' : (a : ℝ) < 2 * Real.pi) (hx : |x| ≤ 2 ^ 200) (hy : |y| ≤ 2 ^ 200)
    (hw : |w| < (2 : ℚ) ^ (-1022 : ℤ)) (hv : |v| ≤ 2 ^ 100) (dt : ℚ) (hdt : |dt| ≤ 2 ^ 100) :
    ∃ X Y : ℚ, (s.next (.fin dt)).x = .fin X ∧ (s.next (.fin dt)).y = .fin Y ∧
      |(X : ℝ) - (CtrvState.next ⟨x, y, v, Angle.ofRad a, w⟩ dt).x| ≤
        |(x : ℝ)| / 2 ^ 53 + 7 * |(v * dt : ℝ)| / 2 ^ 53 + 1 / 2 ^ 97 ∧
      |(Y : ℝ) - (CtrvState.next ⟨x, y, v, Angle.ofRad a, w⟩ dt).y| ≤
        |(y : ℝ)| / 2 ^ 53 + 7 * |(v * dt : ℝ)| / 2 ^ 53 + 1 / 2 ^ 97 := by
  obtain ⟨h1, h2⟩ := CtrvStateF.next_straight hs.dw hs.hw hw (.fin dt)
  rw [hs.hx, hs.hv, hs.ha] at h1
  rw [hs.hy, hs.hv, hs.ha] at h2
  have ha7 : |a| ≤ 2 ^ 21 := by
    rw [abs_of_nonneg ha]
    have := Real.pi_lt_d2
    have : (a : ℝ) ≤ 7 := by linarith
    have : a ≤ 7 := by exact_mod_cast this
    linarith
  have hex := CtrvState.next_straight (s := ⟨x, y, v, Angle.ofRad a, w⟩) ((unitsEq_rat w).2 hw) dt
  rw [Angle.getAngle_ofRad_of_range ⟨by exact_mod_cast ha, ha'⟩] at hex
  obtain ⟨hex1, hex2⟩ := hex
  obtain ⟨p, c, hp, hc, hp', hc'⟩ := hm a ha7
  obtain ⟨r, r1, r2, r3⟩ := straight_fin hv hdt (Real.abs_cos_le_one a) hc'
  obtain ⟨t, t1, t2, t3⟩ := straight_fin hv hdt (Real.abs_sin_le_one a) hp'
  have hvd : |(v * dt : ℝ)| ≤ 2 ^ 200 := by
    rw [abs_mul]
    have h3 : |(v : ℝ)| ≤ 2 ^ 100 := by exact_mod_cast hv
    have h4 : |(dt : ℝ)| ≤ 2 ^ 100 := by exact_mod_cast hdt
    exact (mul_le_mul h3 h4 (abs_nonneg _) (by norm_num)).trans (by norm_num)
  have big : ∀ {r : ℚ}, |(r : ℝ)| ≤ 2 * |(v * dt : ℝ)| + 1 / 2 ^ 98 → |r| ≤ 2 ^ 210 := by
    intro r h
    have : |(r : ℝ)| ≤ 2 ^ 210 := by
      norm_num at *
      linarith
    exact_mod_cast this
  rw [hc, r1, (add_fin hx (big r3)).1] at h1
  rw [hp, t1, (add_fin hy (big t3)).1] at h2
  refine ⟨_, _, h1, h2, ?_, ?_⟩
  · have h := sum_err (x := x) (X := (binary64.round (x + r) : ℚ)) (by simpa using b64_cast (x + r))
      r2 r3
    rw [hex1]
    refine h.trans ?_
    have := abs_nonneg (v * dt : ℝ)
    norm_num
    linarith
  · have h := sum_err (x := y) (X := (binary64.round (y + t) : ℚ)) (by simpa using b64_cast (y + t))
      t2 t3
    rw [hex2]
    refine h.trans ?_
    have := abs_nonneg (v * dt : ℝ)
    norm_num
    linarith

/-- C89: an object with a tiny yaw rate is predicted to stay where it is, however fast it is, while
its exact displacement is the distance travelled up to one part in a thousand. -/
theorem C89_stuck (hs : FiniteCtrv s x y v w a) (ha : 1 / 2 ^ 100 ≤ |a|) (ha' : |a| ≤ 7)
    (hw : (2 : ℚ) ^ (-1022 : ℤ) ≤ |w|) (hQ : |v / w| < (2 ^ 54 - 1) * (2 : ℚ) ^ (970 : ℤ)) (dt : ℚ)
    (hdt : |w * dt| ≤ |a| / 2 ^ 57) :
    (s.next (.fin dt)).x = .fin x ∧ (s.next (.fin dt)).y = .fin y ∧
    999 / 1000 * |(v * dt : ℝ)| ≤
      Real.sqrt (((CtrvState.next ⟨x, y, v, Angle.ofRad a, w⟩ dt).x - x) ^ 2 +
        ((CtrvState.next ⟨x, y, v, Angle.ofRad a, w⟩ dt).y - y) ^ 2) := by
  obtain ⟨h1, h2⟩ := (C89_absorbed s hs hw _ (C89_absorbed_if hs.da ha hdt)).1 hQ
  refine ⟨h1, h2, le_trans ?_ (C89_exact_displacement ⟨x, y, v, Angle.ofRad a, w⟩ dt)⟩
  have h3 : |(w * dt : ℝ)| ≤ 1 / 100 := by
    have h4 : |w * dt| ≤ 1 / 100 := by
      norm_num at *
      linarith
    have h5 : ((|w * dt| : ℚ) : ℝ) ≤ ((1 / 100 : ℚ) : ℝ) := Rat.cast_le.2 h4
    push_cast at h5
    exact h5
  show 999 / 1000 * |(v * dt : ℝ)| ≤ |(v * dt : ℝ)| * (1 - (w * dt : ℝ) ^ 2 / 24)
  rw [← sq_abs (w * dt : ℝ)]
  have h6 := abs_nonneg (w * dt : ℝ)
  rw [mul_comm]
  refine mul_le_mul_of_nonneg_left ?_ (abs_nonneg _)
  nlinarith

end

theorem isDouble_nat {n : ℕ} (h : n < 2 ^ 53) : IsDouble n := by
  have h1 : binary64.round n = n := by
    have := binary64.round_exact (m := (n : ℤ)) (j := 0)
      (by rw [abs_of_nonneg (by omega)]; exact_mod_cast h) (by decide)
    simpa using this
  rw [← h1]
  refine isDouble_round ?_
  rw [h1, abs_of_nonneg (by positivity)]
  have h2 : (n : ℚ) < 2 ^ 53 := by exact_mod_cast h
  refine h2.trans_le ?_
  exact_mod_cast (pow_le_pow_right₀ (a := (2 : ℚ)) (by norm_num) (show 53 ≤ 1024 by norm_num))

theorem isDouble_pow {k : ℤ} (h1 : -1022 ≤ k) (h2 : k < 1024) : IsDouble ((2 : ℚ) ^ k) := by
  refine ⟨2 ^ 52, k - 52, ⟨by decide, by omega, .inl (by decide)⟩, ?_, ?_⟩
  · rw [show (((2 : ℤ) ^ 52 : ℤ) : ℚ) = (2 : ℚ) ^ (52 : ℤ) by norm_num, ← zpow_add₀ (by norm_num)]
    congr 1
    ring
  · rw [abs_of_pos (Fmt.two_zpow_pos _)]
    exact zpow_lt_zpow_right₀ (by norm_num) h2

/-- C89: concretely, an object at 30 m/s with heading 1 rad and yaw rate 2⁻⁵⁷ rad/s is predicted one
second ahead at the place where it was (exactly: more than 29.9 m away). -/
theorem C89_stuck_example (m : Libm) (yaw : m.Ang) (h : m.getAngle yaw = .fin 1)
    (hsin : ∃ q, m.sin (.fin 1) = .fin q) (hcos : ∃ q, m.cos (.fin 1) = .fin q) :
    let s : CtrvStateF m := ⟨.fin 0, .fin 0, .fin 30, yaw, .fin ((2 : ℚ) ^ (-57 : ℤ))⟩
    (s.next (.fin 1)).x = .fin 0 ∧ (s.next (.fin 1)).y = .fin 0 ∧
    29.9 < Real.sqrt (((CtrvState.next ⟨0, 0, 30, Angle.ofRad 1, 2 ^ (-57 : ℤ)⟩ 1).x) ^ 2 +
        ((CtrvState.next ⟨0, 0, 30, Angle.ofRad 1, 2 ^ (-57 : ℤ)⟩ 1).y) ^ 2) := by
  intro s
  have hs : FiniteCtrv s 0 0 30 ((2 : ℚ) ^ (-57 : ℤ)) 1 :=
    ⟨rfl, rfl, rfl, rfl, h, isDouble_zero, isDouble_zero, by exact_mod_cast isDouble_nat (n := 30) (by norm_num),
      isDouble_pow (by norm_num) (by norm_num), by exact_mod_cast isDouble_nat (n := 1) (by norm_num), hsin, hcos⟩
  have hp := Fmt.two_zpow_pos (-57)
  have hA : |(30 : ℚ) / 2 ^ (-57 : ℤ)| < (2 ^ 54 - 1) * (2 : ℚ) ^ (970 : ℤ) := by
    rw [abs_of_pos (by positivity)]
    have e : (30 : ℚ) / 2 ^ (-57 : ℤ) < (2 ^ 54 - 1) * 2 ^ 20 := by norm_num
    have e3 : (2 : ℚ) ^ 20 ≤ (2 : ℚ) ^ (970 : ℤ) := by
      exact_mod_cast (pow_le_pow_right₀ (a := (2 : ℚ)) (by norm_num) (show 20 ≤ 970 by norm_num))
    exact e.trans_le (mul_le_mul_of_nonneg_left e3 (by norm_num))
  have hB : |(2 : ℚ) ^ (-57 : ℤ) * 1| ≤ |1| / 2 ^ 57 := by
    rw [mul_one, abs_of_pos hp]
    norm_num
  obtain ⟨h1, h2, h3⟩ := C89_stuck s hs (by norm_num) (by norm_num)
    (by rw [abs_of_pos hp]; exact zpow_le_zpow_right₀ (by norm_num) (by norm_num)) hA 1 hB
  refine ⟨h1, h2, ?_⟩
  push_cast at h3
  simp only [sub_zero] at h3
  refine lt_of_lt_of_le ?_ h3
  norm_num

/-- C89: with the smallest yaw rate that counts as turning, 2⁻¹⁰²² rad/s, an object at 30 m/s is
predicted at (NaN, NaN), whatever the (finite) time step up to 2⁹⁰⁰ s. -/
theorem C89_nan_example (m : Libm) (yaw : m.Ang) (h : m.getAngle yaw = .fin 1)
    (hsin : ∃ q, m.sin (.fin 1) = .fin q) (hcos : ∃ q, m.cos (.fin 1) = .fin q)
    (dt : ℚ) (hdt : |dt| ≤ (2 : ℚ) ^ (900 : ℤ)) :
    let s : CtrvStateF m := ⟨.fin 0, .fin 0, .fin 30, yaw, .fin ((2 : ℚ) ^ (-1022 : ℤ))⟩
    (s.next (.fin dt)).x = .nan ∧ (s.next (.fin dt)).y = .nan := by
  intro s
  have hs : FiniteCtrv s 0 0 30 ((2 : ℚ) ^ (-1022 : ℤ)) 1 :=
    ⟨rfl, rfl, rfl, rfl, h, isDouble_zero, isDouble_zero,
      by exact_mod_cast isDouble_nat (n := 30) (by norm_num),
      isDouble_pow (by norm_num) (by norm_num),
      by exact_mod_cast isDouble_nat (n := 1) (by norm_num), hsin, hcos⟩
  have hp := Fmt.two_zpow_pos (-1022)
  have hB : |(2 : ℚ) ^ (-1022 : ℤ) * dt| ≤ |1| / 2 ^ 57 := by
    rw [abs_mul, abs_of_pos hp]
    refine (mul_le_mul_of_nonneg_left hdt hp.le).trans ?_
    rw [← zpow_add₀ (by norm_num)]
    norm_num
  refine (C89_absorbed s hs (le_abs_self _) _ (C89_absorbed_if hs.da (by norm_num) hB)).2 ?_
  rw [abs_of_pos (by positivity), le_div_iff₀ hp, mul_assoc, ← zpow_add₀ (by norm_num)]
  norm_num

/-- a library with accurate sine and cosine exists -/
theorem exists_accurateTrig : ∃ m : Libm, AccurateTrig m ∧ ∃ yaw, m.getAngle yaw = .fin 1 := by
  have key : ∀ r : ℝ, ∃ q : ℚ, |(q : ℝ) - r| ≤ 1 / 2 ^ 52 := fun r => by
    obtain ⟨q, h1, h2⟩ := exists_rat_btwn (show r - 1 / 2 ^ 52 < r + 1 / 2 ^ 52 by
      have : (0 : ℝ) < 1 / 2 ^ 52 := by positivity
      linarith)
    exact ⟨q, abs_le.2 ⟨by linarith, by linarith⟩⟩
  choose f hf using key
  refine ⟨⟨Unit, fun a => match a with | .fin q => .fin (f (Real.sin q)) | _ => .nan,
    fun a => match a with | .fin q => .fin (f (Real.cos q)) | _ => .nan, fun _ => (),
    fun _ => .fin 1⟩, fun q _ => ⟨_, _, rfl, rfl, hf _, hf _⟩, (), ?_⟩
  show getAngleF (.fin 1) = .fin 1
  decide +kernel

/-- the hypotheses of `C89_accuracy_turn` are met: 10 m/s, yaw rate 1/2, heading 1 rad, two seconds -/
example : ∃ (m : Libm) (s : CtrvStateF m) (X Y : ℚ), (s.next (.fin 2)).x = .fin X ∧
    (s.next (.fin 2)).y = .fin Y ∧
    |(X : ℝ) - (CtrvState.next ⟨3, 4, 10, Angle.ofRad 1, 1 / 2⟩ 2).x| ≤ 1 / 2 ^ 40 := by
  obtain ⟨m, hm, yaw, hy⟩ := exists_accurateTrig
  obtain ⟨p, c, hp, hc, -, -⟩ := hm 1 (by norm_num)
  have hd : ∀ n : ℕ, n < 100 → IsDouble n := fun n h => isDouble_nat (h.trans (by norm_num))
  have hh : (2 : ℚ) ^ (-1 : ℤ) = 1 / 2 := by norm_num
  have hs : FiniteCtrv (m := m) ⟨.fin 3, .fin 4, .fin 10, yaw, .fin (1 / 2)⟩ 3 4 10 (1 / 2) 1 :=
    ⟨rfl, rfl, rfl, rfl, hy, by exact_mod_cast hd 3 (by norm_num),
      by exact_mod_cast hd 4 (by norm_num), by exact_mod_cast hd 10 (by norm_num),
      by rw [← hh]; exact isDouble_pow (by norm_num) (by norm_num),
      by exact_mod_cast hd 1 (by norm_num), ⟨_, hp⟩, ⟨_, hc⟩⟩
  have hw : (2 : ℚ) ^ (-1022 : ℤ) ≤ |1 / 2| := by
    rw [abs_of_pos (by norm_num), ← hh]
    exact zpow_le_zpow_right₀ (by norm_num) (by norm_num)
  obtain ⟨X, Y, hX, hY, h, -⟩ := C89_accuracy_turn _ hm hs.fields (by norm_num)
    (by have := Real.pi_gt_three; push_cast; linarith) (by norm_num) (by norm_num) hw (by norm_num) 2
    (by norm_num)
  refine ⟨m, _, X, Y, hX, hY, ?_⟩
  push_cast at h
  refine h.trans ?_
  norm_num

end Mot.Props
