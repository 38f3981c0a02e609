import Verif.Proofs.FloatCtra
import Verif.Props.FloatMotion
/-!
# Prediction with acceleration as it is computed (C90)
-/

namespace Mot.Props

open Mot Spec

section
variable {m : Libm}

/-- C90: with a yaw rate between 2⁻¹⁰²² and 2⁻⁵¹² rad/s the predicted position of a CTRA object is
never finite, whatever the state, the time step and the mathematical library. -/
theorem C90_never_finite (s : CtraStateF m) {w : ℚ} (hd : IsDouble w) (h : s.yawRate = .fin w)
    (hw : (2 : ℚ) ^ (-1022 : ℤ) ≤ |w|) (hw' : |w| ≤ (2 : ℚ) ^ (-512 : ℤ)) (dt : FP) (q : ℚ) :
    (s.next dt).x ≠ .fin q ∧ (s.next dt).y ≠ .fin q := by
  obtain ⟨h1, h2⟩ := CtraStateF.next_turn hd h hw dt
  rw [h1, h2, one_div_sq_inf hw']
  constructor
  all_goals
    intro h
    obtain ⟨_, h⟩ := (fin_of_add h).2
    obtain ⟨_, h⟩ := (fin_of_mul h).1
    cases h

/-- C90: the heading after the turn, for both models: sine and cosine are those of old heading plus
yaw rate times time up to (64 + |ωt|)·2⁻⁵³, and reading it gives a number in ±7. -/
theorem C90_heading (hm : AccuratePhase m) {a w dt : ℚ} (ha : |a| ≤ 7) (hΘ : |w * dt| ≤ 2 ^ 19) :
    (∀ s : CtrvStateF m, m.getAngle s.yaw = .fin a → s.yawRate = .fin w →
      ∃ b : ℚ, m.getAngle (s.next (.fin dt)).yaw = .fin b ∧ |b| ≤ 7 ∧
        |Real.sin b - Real.sin (a + w * dt)| ≤ (64 + |(w * dt : ℝ)|) / 2 ^ 53 ∧
        |Real.cos b - Real.cos (a + w * dt)| ≤ (64 + |(w * dt : ℝ)|) / 2 ^ 53) ∧
    (∀ s : CtraStateF m, m.getAngle s.yaw = .fin a → s.yawRate = .fin w →
      ∃ b : ℚ, m.getAngle (s.next (.fin dt)).yaw = .fin b ∧ |b| ≤ 7 ∧
        |Real.sin b - Real.sin (a + w * dt)| ≤ (64 + |(w * dt : ℝ)|) / 2 ^ 53 ∧
        |Real.cos b - Real.cos (a + w * dt)| ≤ (64 + |(w * dt : ℝ)|) / 2 ^ 53) := by
  constructor
  · intro s h1 h2
    have := addAng_err hm h1 ha hΘ
    rwa [← h2] at this
  · intro s h1 h2
    have := addAng_err hm h1 ha hΘ
    rwa [← h2] at this

/-- a state whose members are finite `double`s -/
structure FiniteCtra (s : CtraStateF m) (x y v w acc a : ℚ) : Prop where
  hx : s.x = .fin x
  hy : s.y = .fin y
  hv : s.v = .fin v
  hw : s.yawRate = .fin w
  hacc : s.a = .fin acc
  ha : m.getAngle s.yaw = .fin a
  dw : IsDouble w

/-- C90: in a turn the computed position differs from the exact one by at most 2⁻⁵³ of the
coordinate and (178 + 2|ωt|)·2⁻⁵³·(|vω| + |aωt| + |a| + 2⁻¹⁰⁰)/ω². -/
theorem C90_accuracy_turn (hm : AccurateTrig m) (hm' : AccuratePhase m) (s : CtraStateF m)
    {x y v w acc a : ℚ} (hs : FiniteCtra s x y v w acc a) (ha : 0 ≤ a) (ha' : (a : ℝ) < 2 * Real.pi)
    (hx : |x| ≤ 2 ^ 200) (hy : |y| ≤ 2 ^ 200) (hw : 1 / 2 ^ 60 ≤ |w|) (hw1 : |w| ≤ 2 ^ 20)
    (dt : ℚ) (hΘ : |w * dt| ≤ 2 ^ 19)
    (hM : |v * w| + |acc * dt * w| + |acc| ≤ 2 ^ 79) :
    ∃ X Y : ℚ, (s.next (.fin dt)).x = .fin X ∧ (s.next (.fin dt)).y = .fin Y ∧
      |(X : ℝ) - (CtraState.next ⟨x, y, v, Angle.ofRad a, w, acc⟩ dt).x| ≤
        |(x : ℝ)| / 2 ^ 53 + (178 + 2 * |(w * dt : ℝ)|) / 2 ^ 53 *
          ((|(v * w : ℝ)| + |(acc * dt * w : ℝ)| + |(acc : ℝ)| + 1 / 2 ^ 100) / (w * w)) ∧
      |(Y : ℝ) - (CtraState.next ⟨x, y, v, Angle.ofRad a, w, acc⟩ dt).y| ≤
        |(y : ℝ)| / 2 ^ 53 + (178 + 2 * |(w * dt : ℝ)|) / 2 ^ 53 *
          ((|(v * w : ℝ)| + |(acc * dt * w : ℝ)| + |(acc : ℝ)| + 1 / 2 ^ 100) / (w * w)) := by
  have hw0 : w ≠ 0 := by
    rintro rfl
    norm_num at hw
  have hwp : 0 < |w| := abs_pos.2 hw0
  have hwmin : (2 : ℚ) ^ (-1022 : ℤ) ≤ |w| := by
    refine le_trans ?_ hw
    have : (2 : ℚ) ^ (-1022 : ℤ) ≤ (2 : ℚ) ^ (-60 : ℤ) :=
      zpow_le_zpow_right₀ (by norm_num) (by norm_num)
    refine this.trans ?_
    norm_num
  have ha7 : |a| ≤ 7 := by
    rw [abs_of_nonneg ha]
    have := Real.pi_lt_d2
    have : (a : ℝ) ≤ 7 := by linarith
    exact_mod_cast this
  obtain ⟨h1, h2⟩ := CtraStateF.next_turn hs.dw hs.hw hwmin (.fin dt)
  obtain ⟨b, hb, hb7, hbs, hbc⟩ := (C90_heading hm' ha7 hΘ).2 s hs.ha hs.hw
  have hex := CtraState.next_turn (s := ⟨x, y, v, Angle.ofRad a, w, acc⟩) (fun h =>
    absurd ((unitsEq_rat w).1 h) (not_lt.2 hwmin)) dt
  rw [Angle.getAngle_ofRad_of_range ⟨by exact_mod_cast ha, ha'⟩] at hex
  obtain ⟨hex1, hex2⟩ := hex
  obtain ⟨sa, ca, hsa, hca, esa, eca⟩ := hm a (ha7.trans (by norm_num))
  obtain ⟨sb, cb, hsb, hcb, esb, ecb⟩ := hm b (hb7.trans (by norm_num))
  -- the scale
  set M : ℝ := |(v * w : ℝ)| + |(acc * dt * w : ℝ)| + |(acc : ℝ)| + 1 / 2 ^ 100 with hMdef
  have n1 := abs_nonneg (v * w : ℝ)
  have n2 := abs_nonneg (acc * dt * w : ℝ)
  have n3 := abs_nonneg (acc : ℝ)
  have hM1 : |(v * w : ℝ)| + |(acc * dt * w : ℝ)| + |(acc : ℝ)| ≤ 2 ^ 79 := by exact_mod_cast hM
  have hMlo : 1 / 2 ^ 100 ≤ M := by linarith
  have hMhi : M ≤ 2 ^ 80 := by
    rw [hMdef]
    norm_num at hM1 ⊢
    linarith
  have hA : 1 / 2 ^ 153 ≤ M / 2 ^ 53 := by
    norm_num at hMlo ⊢
    linarith
  have hA2 : M / 2 ^ 53 ≤ 2 ^ 27 := by
    norm_num at hMhi ⊢
    linarith
  have hA0 : 0 ≤ M / 2 ^ 53 := le_trans (by positivity) hA
  have hA1 : 1 / 2 ^ 193 ≤ M / 2 ^ 53 := le_trans (by norm_num) hA
  have hA3 : M / 2 ^ 53 ≤ 2 ^ 160 := hA2.trans (by norm_num)
  -- sizes of speed and speed change
  have big : ∀ z : ℚ, |z * w| ≤ 2 ^ 79 → |z| ≤ 2 ^ 150 := by
    intro z hz
    rw [abs_mul] at hz
    have : |z| * (1 / 2 ^ 60) ≤ 2 ^ 79 :=
      (mul_le_mul_of_nonneg_left hw (abs_nonneg _)).trans hz
    norm_num at this ⊢
    linarith
  have q1 := abs_nonneg (v * w)
  have q2 := abs_nonneg (acc * dt * w)
  have q3 := abs_nonneg acc
  obtain ⟨n, hn, hna⟩ := speed_fin (v := v) (a := acc) (w := w) (dt := dt) (M := M)
    (by rw [hMdef]; linarith) hw1 (big v (by linarith)) (big _ (by linarith))
  -- products
  obtain ⟨nw, enw, anw⟩ := hna.fin hA1 hA3 (by norm_num) (by norm_num)
  have hva : Approx (M / 2 ^ 53) (v * w) (v * w) 0 1 := by
    constructor
    · push_cast; simp
    · rw [one_mul, mul_div_cancel₀ _ (by positivity)]; linarith
  obtain ⟨u, eu, au⟩ := hva.fin hA1 hA3 (by norm_num) (by norm_num)
  have hacca : Approx (M / 2 ^ 53) acc acc 0 1 := by
    constructor
    · simp
    · rw [one_mul, mul_div_cancel₀ _ (by positivity)]; linarith
  have anw' := anw.mono (e' := 7 / 2) hA0 (by norm_num) le_rfl
  have au' := au.mono (e' := 11 / 10) hA0 (by norm_num) le_rfl
  -- sines and cosines
  have hΘ1 : |(w * dt : ℝ)| ≤ 2 ^ 19 := by exact_mod_cast hΘ
  set Θ : ℝ := |(w * dt : ℝ)| with hΘdef
  have hΘ0 : 0 ≤ Θ := abs_nonneg _
  have tr : ∀ {p P Q : ℝ}, |p - P| ≤ 1 / 2 ^ 52 → |P - Q| ≤ (64 + Θ) / 2 ^ 53 →
      |p - Q| ≤ (66 + Θ) / 2 ^ 53 := by
    intro p P Q h h'
    have := abs_sub_le p P Q
    norm_num at *
    linarith
  have tr2 : ∀ {p : ℝ}, p ≤ 1 / 2 ^ 52 → p ≤ 2 / 2 ^ 53 := by
    intro p h
    norm_num at *
    linarith
  have hη' : 66 + Θ ≤ 2 ^ 30 := by
    norm_num at *
    linarith
  obtain ⟨r, er, ar⟩ := bracket_fin hA1 hA3 anw' au' hacca (η := 66 + Θ) (by linarith) hη'
    (tr esb hbs) (tr ecb hbc) (tr2 esa) (tr2 eca) (Real.abs_sin_le_one _) (Real.abs_cos_le_one _)
    (Real.abs_sin_le_one _) (Real.abs_cos_le_one _)
  have neg_approx : ∀ {z : ℚ} {Z e c : ℝ}, Approx (M / 2 ^ 53) z Z e c →
      Approx (M / 2 ^ 53) (-z) (-Z) e c := by
    intro z Z e c h
    constructor
    · push_cast
      rw [neg_sub_neg, abs_sub_comm]; exact h.err
    · rw [abs_neg]; exact h.size
  obtain ⟨t, et, at'⟩ := bracket_fin hA1 hA3 (neg_approx anw') (neg_approx au') hacca (η := 66 + Θ)
    (by linarith) hη'
    (tr ecb hbc) (tr esb hbs) (tr2 eca) (tr2 esa) (Real.abs_cos_le_one _) (Real.abs_sin_le_one _)
    (Real.abs_cos_le_one _) (Real.abs_sin_le_one _)
  -- brackets
  have ebx : bracketX (.fin n) (.fin v) (.fin w) (.fin acc) (.fin sb) (.fin cb) (.fin sa) (.fin ca) =
      .fin r := by
    rw [← er]
    unfold bracketX
    rw [show FP.mul binary64 (.fin n) (.fin w) = .fin nw from enw,
      show FP.mul binary64 (.fin v) (.fin w) = .fin u from eu]
  have eby : bracketY (.fin n) (.fin v) (.fin w) (.fin acc) (.fin sb) (.fin cb) (.fin sa) (.fin ca) =
      .fin t := by
    rw [← et]
    unfold bracketY
    rw [show (FP.fin n).neg = .fin (-n) from rfl, neg_mul_fin n w,
      show FP.mul binary64 (.fin n) (.fin w) = .fin nw from enw,
      show FP.mul binary64 (.fin v) (.fin w) = .fin u from eu, neg_mul_fin u ca, sub_neg_fp]
    rfl
  -- one over the square
  obtain ⟨k, ek, ak⟩ := inv_sq_fin hw hw1
  have hsq : (0 : ℝ) < w * w := by
    have : (0 : ℚ) < w * w := mul_self_pos.2 hw0
    exact_mod_cast this
  have hK : (1 : ℝ) / 2 ^ 40 ≤ 1 / (w * w) := by
    refine one_div_le_one_div_of_le hsq ?_
    have : w * w ≤ 2 ^ 40 := by
      rw [← abs_mul_abs_self]
      exact (mul_le_mul hw1 hw1 (abs_nonneg _) (by norm_num)).trans (by norm_num)
    exact_mod_cast this
  have hK' : (1 : ℝ) / (w * w) ≤ 2 ^ 120 := by
    rw [div_le_iff₀ hsq]
    have h4 : 1 / 2 ^ 60 * (1 / 2 ^ 60) ≤ w * w := by
      rw [← abs_mul_abs_self w]
      exact mul_le_mul hw hw (by norm_num) (abs_nonneg _)
    have h5 := Rat.cast_le (K := ℝ).2 h4
    push_cast at h5
    norm_num at h5 ⊢
    linarith
  have hee : 25 + 2 * (66 + Θ) ≤ 2 ^ 35 := by
    norm_num at *
    linarith
  obtain ⟨X, eX, aX⟩ := ctra_sum_fin hK hK' hA hA2 (by linarith) hee ak ar hx
  obtain ⟨Y, eY, aY⟩ := ctra_sum_fin hK hK' hA hA2 (by linarith) hee ak at' hy
  have hB0 : 0 ≤ 1 / (w * w : ℝ) * (M / 2 ^ 53) := mul_nonneg (by positivity) hA0
  have fin : ∀ {p : ℝ}, p + (25 + 2 * (66 + Θ) + 18) * (1 / (w * w) * (M / 2 ^ 53)) ≤
      p + (178 + 2 * Θ) / 2 ^ 53 * (M / (w * w)) := by
    intro p
    have e : (178 + 2 * Θ) / 2 ^ 53 * (M / (w * w)) =
        (178 + 2 * Θ) * (1 / (w * w) * (M / 2 ^ 53)) := by ring
    rw [e]
    have := mul_le_mul_of_nonneg_right
      (show 25 + 2 * (66 + Θ) + 18 ≤ 178 + 2 * Θ by linarith) hB0
    linarith
  refine ⟨X, Y, ?_, ?_, ?_, ?_⟩
  · rw [h1, hs.hx, hs.hv, hs.hacc, hb, hs.ha, hsa, hca, hsb, hcb, hn, ebx, ek, eX]
  · rw [h2, hs.hy, hs.hv, hs.hacc, hb, hs.ha, hsa, hca, hsb, hcb, hn, eby, ek, eY]
  · rw [hex1]
    refine le_trans (le_of_eq ?_) (aX.trans fin)
    rfl
  · rw [hex2]
    refine le_trans (le_of_eq ?_) (aY.trans fin)
    congr 1
    ring

theorem CtraStateF.next_straight {s : CtraStateF m} {w : ℚ} (hw : IsDouble w)
    (h : s.yawRate = .fin w) (hw' : |w| < (2 : ℚ) ^ (-1022 : ℤ)) (dt : FP) :
    (s.next dt).x = FP.add binary64 s.x (FP.mul binary64 (FP.add binary64 (FP.mul binary64 s.v dt)
      (FP.div binary64 (FP.mul binary64 (FP.mul binary64 s.a dt) dt) (.fin 2)))
      (m.cos (m.getAngle s.yaw))) ∧
    (s.next dt).y = FP.add binary64 s.y (FP.mul binary64 (FP.add binary64 (FP.mul binary64 s.v dt)
      (FP.div binary64 (FP.mul binary64 (FP.mul binary64 s.a dt) dt) (.fin 2)))
      (m.sin (m.getAngle s.yaw))) := by
  have : unitsEqF s.yawRate (.fin 0) = true := by
    rw [h, unitsEqF_zero hw]
    exact decide_eq_true hw'
  unfold CtraStateF.next
  simp only [this]
  exact ⟨rfl, rfl⟩

/-- C90: without turning the computed position differs from the exact one by at most 2⁻⁵³ of the
coordinate and 16·2⁻⁵³·(|vt| + |at²| + 2⁻¹⁰⁰). -/
theorem C90_accuracy_straight (hm : AccurateTrig m) (s : CtraStateF m)
    {x y v w acc a : ℚ} (hs : FiniteCtra s x y v w acc a) (ha : 0 ≤ a) (ha' : (a : ℝ) < 2 * Real.pi)
    (hx : |x| ≤ 2 ^ 200) (hy : |y| ≤ 2 ^ 200) (hw : |w| < (2 : ℚ) ^ (-1022 : ℤ))
    (dt : ℚ) (hdt : |dt| ≤ 2 ^ 20) (hv : |v| ≤ 2 ^ 100) (hacc : |acc| ≤ 2 ^ 100) :
    ∃ X Y : ℚ, (s.next (.fin dt)).x = .fin X ∧ (s.next (.fin dt)).y = .fin Y ∧
      |(X : ℝ) - (CtraState.next ⟨x, y, v, Angle.ofRad a, w, acc⟩ dt).x| ≤ |(x : ℝ)| / 2 ^ 53 +
        16 / 2 ^ 53 * (|(v * dt : ℝ)| + |(acc * dt * dt : ℝ)| + 1 / 2 ^ 100) ∧
      |(Y : ℝ) - (CtraState.next ⟨x, y, v, Angle.ofRad a, w, acc⟩ dt).y| ≤ |(y : ℝ)| / 2 ^ 53 +
        16 / 2 ^ 53 * (|(v * dt : ℝ)| + |(acc * dt * dt : ℝ)| + 1 / 2 ^ 100) := by
  obtain ⟨h1, h2⟩ := CtraStateF.next_straight hs.dw hs.hw hw (.fin dt)
  have ha7 : |a| ≤ 2 ^ 21 := by
    rw [abs_of_nonneg ha]
    have := Real.pi_lt_d2
    have : (a : ℝ) ≤ 7 := by linarith
    have : a ≤ 7 := by exact_mod_cast this
    linarith
  have hex := CtraState.next_straight (s := ⟨x, y, v, Angle.ofRad a, w, acc⟩)
    ((unitsEq_rat w).2 hw) dt
  rw [Angle.getAngle_ofRad_of_range ⟨by exact_mod_cast ha, ha'⟩] at hex
  obtain ⟨hex1, hex2⟩ := hex
  obtain ⟨sa, ca, hsa, hca, esa, eca⟩ := hm a ha7
  have hvd : |v * dt| ≤ 2 ^ 120 := by
    rw [abs_mul]
    exact (mul_le_mul hv hdt (abs_nonneg _) (by norm_num)).trans (by norm_num)
  have had : |acc * dt| ≤ 2 ^ 120 := by
    rw [abs_mul]
    exact (mul_le_mul hacc hdt (abs_nonneg _) (by norm_num)).trans (by norm_num)
  have hadd : |acc * dt * dt| ≤ 2 ^ 140 := by
    rw [abs_mul]
    exact (mul_le_mul had hdt (abs_nonneg _) (by norm_num)).trans (by norm_num)
  have hvd' : |(v * dt : ℝ)| ≤ 2 ^ 120 := by exact_mod_cast hvd
  have hadd' : |(acc * dt * dt : ℝ)| ≤ 2 ^ 140 := by exact_mod_cast hadd
  have hdt' : |(dt : ℝ)| ≤ 2 ^ 20 := by exact_mod_cast hdt
  have n1 := abs_nonneg (v * dt : ℝ)
  have n2 := abs_nonneg (acc * dt * dt : ℝ)
  set M : ℝ := |(v * dt : ℝ)| + |(acc * dt * dt : ℝ)| + 1 / 2 ^ 100 with hMdef
  have hM0 : (0 : ℝ) < 1 / 2 ^ 100 := by positivity
  have hMlo : 1 / 2 ^ 100 ≤ M := by linarith
  have hMhi : M ≤ 2 ^ 141 := by
    rw [hMdef]
    norm_num at hvd' hadd' ⊢
    linarith
  have hA : 1 / 2 ^ 153 ≤ M / 2 ^ 53 := by
    norm_num at hMlo ⊢
    linarith
  have hA2 : M / 2 ^ 53 ≤ 2 ^ 90 := by
    norm_num at hMhi ⊢
    linarith
  have hA0 : 0 ≤ M / 2 ^ 53 := le_trans (by positivity) hA
  have hA1 : 1 / 2 ^ 193 ≤ M / 2 ^ 53 := le_trans (by norm_num) hA
  have hA3 : M / 2 ^ 53 ≤ 2 ^ 160 := hA2.trans (by norm_num)
  have k1 : Approx (M / 2 ^ 53) (v * dt) (v * dt) 0 1 := by
    constructor
    · push_cast; simp
    · rw [one_mul, mul_div_cancel₀ _ (by positivity)]; linarith
  obtain ⟨p, ep, ap⟩ := k1.fin hA1 hA3 (by norm_num) (by norm_num)
  have k2 : Approx (M / 2 ^ 53) (binary64.round (acc * dt) * dt) (acc * dt * dt) (11 / 10) 1 := by
    constructor
    · have c := b64_cast (acc * dt)
      push_cast at c ⊢
      rw [← sub_mul, abs_mul]
      refine (mul_le_mul_of_nonneg_right c (abs_nonneg _)).trans ?_
      rw [add_mul, div_mul_eq_mul_div, ← abs_mul]
      clear_value M
      generalize |(acc * dt * dt : ℝ)| = z1 at *
      generalize |(dt : ℝ)| = z2 at *
      generalize |(v * dt : ℝ)| = z3 at *
      clear hMhi hA2 hA3 hvd' hadd'
      norm_num at *
      linarith
    · rw [one_mul, mul_div_cancel₀ _ (by positivity)]; linarith
  obtain ⟨q, eq, aq⟩ := k2.fin hA1 hA3 (by norm_num) (by norm_num)
  have k3 : Approx (M / 2 ^ 53) (q / 2) (acc * dt * dt / 2) (11 / 10) 1 := by
    constructor
    · push_cast
      rw [← sub_div, abs_div, abs_two, div_le_iff₀ (by norm_num)]
      refine aq.err.trans ?_
      rw [mul_right_comm]
      exact mul_le_mul_of_nonneg_right (by norm_num) hA0
    · rw [abs_div, abs_two]
      have h := aq.size
      have := abs_nonneg (acc * dt * dt : ℝ)
      linarith
  obtain ⟨r, er, ar⟩ := k3.fin hA1 hA3 (by norm_num) (by norm_num)
  obtain ⟨t, et, at'⟩ := (ap.add_fin ar hA1 hA3 (by norm_num) (by norm_num)).1
  have tr2 : ∀ {p : ℝ}, p ≤ 1 / 2 ^ 52 → p ≤ 2 / 2 ^ 53 := by
    intro p h
    norm_num at *
    linarith
  have sum : ∀ {x c : ℚ} {C : ℝ}, |x| ≤ 2 ^ 200 → |(c : ℝ) - C| ≤ 1 / 2 ^ 52 → |C| ≤ 1 →
      ∃ X : ℚ, FP.add binary64 (.fin x) (FP.mul binary64 (.fin t) (.fin c)) = .fin X ∧
        |(X : ℝ) - (x + (v * dt + acc * dt * dt / 2) * C)| ≤
          |(x : ℝ)| / 2 ^ 53 + 16 / 2 ^ 53 * M := by
    intro x c C hx hc hC
    obtain ⟨d, ed, ad⟩ := at'.mul_fin hA1 hA3 (by norm_num) (by norm_num) (by norm_num)
      (by norm_num) (tr2 hc) hC (by norm_num) (by norm_num)
    have h6 : |(d : ℝ)| ≤ (2 ^ 53 * 2 + 2 ^ 36) * (M / 2 ^ 53) := by
      have h := abs_add_le (d - (v * dt + acc * dt * dt / 2) * C)
        ((v * dt + acc * dt * dt / 2) * C)
      rw [sub_add_cancel] at h
      have h4 := ad.err
      have h5 := ad.size
      clear_value M
      generalize M / 2 ^ 53 = B at *
      norm_num at *
      linarith
    have hdb : |d| ≤ 2 ^ 210 := by
      have : |(d : ℝ)| ≤ 2 ^ 210 := by
        refine h6.trans ((mul_le_mul_of_nonneg_left hA2 (by norm_num)).trans ?_)
        norm_num
      exact_mod_cast this
    refine ⟨_, by rw [ed, (Mot.add_fin hx hdb).1], ?_⟩
    have h7 := sum_err (x := (x : ℝ)) (X := (binary64.round (x + d) : ℚ)) (r := d)
      (R := (v * dt + acc * dt * dt / 2) * C) (A := 12 * (M / 2 ^ 53))
      (B := (2 ^ 53 * 2 + 2 ^ 36) * (M / 2 ^ 53)) (ε := 0) (ε' := 0)
      (by simpa using b64_cast (x + d))
      (by rw [add_zero]; exact ad.err.trans (mul_le_mul_of_nonneg_right (by norm_num) hA0))
      (by rw [add_zero]; exact h6)
    refine h7.trans ?_
    clear h7 h6 ad ed
    clear_value M
    norm_num at *
    linarith
  have e1 : FP.add binary64 (FP.mul binary64 (.fin v) (.fin dt)) (FP.div binary64
      (FP.mul binary64 (FP.mul binary64 (.fin acc) (.fin dt)) (.fin dt)) (.fin 2)) = .fin t := by
    rw [show FP.mul binary64 (.fin v) (.fin dt) = .fin p from ep,
      show FP.mul binary64 (.fin acc) (.fin dt) = .fin (binary64.round (acc * dt)) from
        b64_ofRat (had.trans (by norm_num)),
      show FP.mul binary64 (.fin (binary64.round (acc * dt))) (.fin dt) = .fin q from eq]
    rw [show FP.div binary64 (.fin q) (.fin 2) = .fin r from er, et]
  obtain ⟨X, eX, aX⟩ := sum hx eca (Real.abs_cos_le_one _)
  obtain ⟨Y, eY, aY⟩ := sum hy esa (Real.abs_sin_le_one _)
  refine ⟨X, Y, ?_, ?_, ?_, ?_⟩
  · rw [h1, hs.hx, hs.hv, hs.hacc, hs.ha, hca, e1, eX]
  · rw [h2, hs.hy, hs.hv, hs.hacc, hs.ha, hsa, e1, eY]
  · rw [hex1]; exact aX
  · rw [hex2]; exact aY

end

/-- C90: zero process noise changes neither position nor speed nor yaw rate of the prediction, as
long as sine and cosine of the heading and the square of the time step are finite. -/
theorem C90_zero_noise {m : Libm} {dt q p c : ℚ}
    (hq : FP.mul binary64 (.fin dt) (.fin dt) = .fin q) :
    (∀ s : CtrvStateF m, m.sin (m.getAngle s.yaw) = .fin p → m.cos (m.getAngle s.yaw) = .fin c →
      ∀ v w : ℚ, s.v = .fin v → s.yawRate = .fin w → IsDouble v → IsDouble w →
      let t := s.nextNoisy (.fin dt) ⟨.fin 0, .fin 0⟩
      t.x = (s.next (.fin dt)).x ∧ t.y = (s.next (.fin dt)).y ∧ t.v = (s.next (.fin dt)).v ∧
        t.yawRate = (s.next (.fin dt)).yawRate) ∧
    (∀ s : CtraStateF m, m.sin (m.getAngle s.yaw) = .fin p → m.cos (m.getAngle s.yaw) = .fin c →
      ∀ w acc : ℚ, s.yawRate = .fin w → s.a = .fin acc → IsDouble w → IsDouble acc →
      let t := s.nextNoisy (.fin dt) ⟨.fin 0, .fin 0⟩
      t.x = (s.next (.fin dt)).x ∧ t.y = (s.next (.fin dt)).y ∧ t.v = (s.next (.fin dt)).v ∧
        t.yawRate = (s.next (.fin dt)).yawRate ∧ t.a = (s.next (.fin dt)).a) := by
  have zr : ∀ r : ℚ, FP.mul binary64 (.fin r) (.fin 0) = .fin 0 := fun r => by
    show FP.ofRat binary64 (r * 0) = _
    rw [mul_zero, isDouble_zero.ofRat]
  have zl : ∀ r : ℚ, FP.mul binary64 (.fin 0) (.fin r) = .fin 0 := fun r => by
    show FP.ofRat binary64 (0 * r) = _
    rw [zero_mul, isDouble_zero.ofRat]
  have zero : ∀ r : ℚ, FP.mul binary64 (FP.mul binary64 (FP.mul binary64 (.fin (1 / 2)) (.fin 0))
      (.fin r)) (FP.mul binary64 (.fin dt) (.fin dt)) = .fin 0 := fun r => by
    rw [hq, zr, zl, zl]
  have key : ∀ c : FP, (∀ q, c = .fin q → IsDouble q) → FP.add binary64 c (.fin 0) = c := by
    intro c hc
    cases c with
    | nan => rfl
    | inf s => rfl
    | fin q =>
      show FP.ofRat binary64 (q + 0) = _
      rw [add_zero, (hc q rfl).ofRat]
  have hadd : ∀ a b : FP, ∀ q, FP.add binary64 a b = .fin q → IsDouble q := by
    intro a b q h
    obtain ⟨⟨_, rfl⟩, _, rfl⟩ := fin_of_add h
    exact isDouble_of_ofRat h
  have hsub : ∀ a b : FP, ∀ q, FP.sub binary64 a b = .fin q → IsDouble q := by
    intro a b q h
    refine hadd a b.neg q ?_
    rw [← sub_neg_fp]
    cases b <;> simpa [FP.neg] using h
  constructor
  · intro s hp hc v w hv hw dv dw t
    have e1 : t.x = FP.add binary64 (s.next (.fin dt)).x (.fin 0) := by
      rw [← zero c, ← hc]; rfl
    have e2 : t.y = FP.add binary64 (s.next (.fin dt)).y (.fin 0) := by
      rw [← zero p, ← hp]; rfl
    have e3 : t.v = FP.add binary64 (s.next (.fin dt)).v (.fin 0) := by
      rw [← zl dt]; rfl
    have e4 : t.yawRate = FP.add binary64 (s.next (.fin dt)).yawRate (.fin 0) := by
      rw [← zl dt]; rfl
    refine ⟨?_, ?_, ?_, ?_⟩
    · rw [e1]
      refine key _ ?_
      unfold CtrvStateF.next
      simp only
      split_ifs
      · exact hadd _ _
      · exact hadd _ _
    · rw [e2]
      refine key _ ?_
      unfold CtrvStateF.next
      simp only
      split_ifs
      · exact hadd _ _
      · exact hsub _ _
    · rw [e3]
      refine key _ fun q h => ?_
      rw [show (s.next (.fin dt)).v = .fin v from hv] at h
      cases h
      exact dv
    · rw [e4]
      refine key _ fun q h => ?_
      rw [show (s.next (.fin dt)).yawRate = .fin w from hw] at h
      cases h
      exact dw
  · intro s hp hc w acc hw ha dw da t
    have e1 : t.x = FP.add binary64 (s.next (.fin dt)).x (.fin 0) := by
      rw [← zero c, ← hc]; rfl
    have e2 : t.y = FP.add binary64 (s.next (.fin dt)).y (.fin 0) := by
      rw [← zero p, ← hp]; rfl
    have e3 : t.v = FP.add binary64 (s.next (.fin dt)).v (.fin 0) := by
      rw [← zl dt]; rfl
    have e4 : t.yawRate = FP.add binary64 (s.next (.fin dt)).yawRate (.fin 0) := by
      rw [← zl dt]; rfl
    have e5 : t.a = FP.add binary64 (s.next (.fin dt)).a (.fin 0) := rfl
    refine ⟨?_, ?_, ?_, ?_, ?_⟩
    · rw [e1]; exact key _ (hadd _ _)
    · rw [e2]; exact key _ (hadd _ _)
    · rw [e3]; exact key _ (hadd _ _)
    · rw [e4]
      refine key _ fun q h => ?_
      rw [show (s.next (.fin dt)).yawRate = .fin w from hw] at h
      cases h
      exact dw
    · rw [e5]
      refine key _ fun q h => ?_
      rw [show (s.next (.fin dt)).a = .fin acc from ha] at h
      cases h
      exact da

/-- the `double`s nearest to sine and cosine of the `double` nearest to π/4 -/
def sinPi4 : ℚ := 1592262918131443 / 2251799813685248

/-- see `sinPi4` -/
def cosPi4 : ℚ := 6369051672525773 / 9007199254740992

/-- C90: a prediction with time step 0 can move the object by 128 m: speed 30 m/s, acceleration
1.4142135 m/s², heading π/4, yaw rate 2⁻³⁰ rad/s (in exact arithmetic it stays, C35). -/
theorem C90_zero_step_moves (m : Libm) (yaw : m.Ang) (h : m.getAngle yaw = .fin (piD / 4))
    (h' : m.getAngle (m.addAng yaw (m.ofRad (.fin 0))) = .fin (piD / 4))
    (hsin : m.sin (.fin (piD / 4)) = .fin sinPi4) (hcos : m.cos (.fin (piD / 4)) = .fin cosPi4) :
    let s : CtraStateF m := ⟨.fin 0, .fin 0, .fin 30, yaw, .fin (1 / 2 ^ 30), .fin (11863283 / 2 ^ 23)⟩
    (s.next (.fin 0)).x = .fin 128 ∧ (s.next (.fin 0)).y = .fin 0 := by
  intro s
  have hd : IsDouble (1 / 2 ^ 30) := by
    have := isDouble_pow (k := -30) (by norm_num) (by norm_num)
    rwa [show (2 : ℚ) ^ (-30 : ℤ) = 1 / 2 ^ 30 by norm_num] at this
  have hw : (2 : ℚ) ^ (-1022 : ℤ) ≤ |1 / 2 ^ 30| := by
    rw [abs_of_pos (by norm_num), show (1 : ℚ) / 2 ^ 30 = (2 : ℚ) ^ (-30 : ℤ) by norm_num]
    exact zpow_le_zpow_right₀ (by norm_num) (by norm_num)
  obtain ⟨h1, h2⟩ := CtraStateF.next_turn (s := s) hd rfl hw (.fin 0)
  have e0 : FP.mul binary64 (.fin (1 / 2 ^ 30)) (.fin 0) = .fin 0 := by decide +kernel
  have hy : m.getAngle (s.next (.fin 0)).yaw = .fin (piD / 4) := by
    rw [CtraStateF.next_yaw]
    show m.getAngle (m.addAng yaw (m.ofRad (FP.mul binary64 (.fin (1 / 2 ^ 30)) (.fin 0)))) = _
    rw [e0, h']
  have ha : m.getAngle s.yaw = .fin (piD / 4) := h
  rw [hy, ha, hsin, hcos] at h1 h2
  rw [h1, h2]
  constructor
  · show FP.add binary64 (.fin 0) (FP.mul binary64 _ (bracketX (FP.add binary64 (.fin 30)
      (FP.mul binary64 (.fin (11863283 / 2 ^ 23)) (.fin 0))) (.fin 30) _ (.fin (11863283 / 2 ^ 23))
      _ _ _ _)) = _
    decide +kernel
  · show FP.add binary64 (.fin 0) (FP.mul binary64 _ (bracketY (FP.add binary64 (.fin 30)
      (FP.mul binary64 (.fin (11863283 / 2 ^ 23)) (.fin 0))) (.fin 30) _ (.fin (11863283 / 2 ^ 23))
      _ _ _ _)) = _
    decide +kernel

/-- A library as assumed in these theorems exists. -/
theorem exists_libm : ∃ (m : Libm) (yaw : m.Ang), AccurateTrig m ∧ AccuratePhase m ∧
    m.getAngle yaw = .fin (piD / 4) ∧
    m.getAngle (m.addAng yaw (m.ofRad (.fin 0))) = .fin (piD / 4) ∧
    m.sin (.fin (piD / 4)) = .fin sinPi4 ∧ m.cos (.fin (piD / 4)) = .fin cosPi4 := by
  have key : ∀ r : ℝ, ∃ q : ℚ, |(q : ℝ) - r| ≤ 1 / 2 ^ 52 := fun r => by
    obtain ⟨q, h1, h2⟩ := exists_rat_btwn (show r - 1 / 2 ^ 52 < r + 1 / 2 ^ 52 by
      have : (0 : ℝ) < 1 / 2 ^ 52 := by positivity
      linarith)
    exact ⟨q, abs_le.2 ⟨by linarith, by linarith⟩⟩
  choose f hf using key
  obtain ⟨p1, p2, p3⟩ := piD_bounds
  have hpi : (0 : ℚ) < piD := by unfold piD; norm_num
  -- sine and cosine at π/4
  have hs2 : |(sinPi4 : ℝ) - √2 / 2| ≤ 1 / 2 ^ 53 ∧ |(cosPi4 : ℝ) - √2 / 2| ≤ 1 / 2 ^ 53 := by
    have l1 : (14142135623730950488 / 10 ^ 19 : ℝ) < √2 := Real.lt_sqrt_of_sq_lt (by norm_num)
    have l2 : √2 < (14142135623730950489 / 10 ^ 19 : ℝ) := by
      rw [Real.sqrt_lt' (by norm_num)]; norm_num
    unfold sinPi4 cosPi4
    push_cast
    constructor
    · rw [abs_le]; norm_num at *; constructor <;> linarith
    · rw [abs_le]; norm_num at *; constructor <;> linarith
  have hq4 : |((piD / 4 : ℚ) : ℝ) - Real.pi / 4| ≤ 1 / 2 ^ 54 := by
    push_cast
    rw [abs_le]
    norm_num at *
    constructor <;> linarith
  have hsin4 : |(sinPi4 : ℝ) - Real.sin (piD / 4 : ℚ)| ≤ 1 / 2 ^ 52 := by
    have h1 := Real.abs_sin_sub_sin_le (piD / 4 : ℚ) (Real.pi / 4)
    rw [Real.sin_pi_div_four, abs_sub_comm] at h1
    have h2 := abs_sub_le (sinPi4 : ℝ) (√2 / 2) (Real.sin (piD / 4 : ℚ))
    norm_num at *
    linarith
  have hcos4 : |(cosPi4 : ℝ) - Real.cos (piD / 4 : ℚ)| ≤ 1 / 2 ^ 52 := by
    have h1 := Real.abs_cos_sub_cos_le (piD / 4 : ℚ) (Real.pi / 4)
    rw [Real.cos_pi_div_four, abs_sub_comm] at h1
    have h2 := abs_sub_le (cosPi4 : ℝ) (√2 / 2) (Real.cos (piD / 4 : ℚ))
    norm_num at *
    linarith
  -- phases
  have ph : ∀ q : ℚ, ∃ p : ℚ, -piD ≤ p ∧ p ≤ piD ∧
      |Real.sin p - Real.sin q| ≤ 1 / 2 ^ 50 ∧ |Real.cos p - Real.cos q| ≤ 1 / 2 ^ 50 := by
    intro q
    set θ := (Real.Angle.toReal (q : ℝ)) with hθ
    have t1 : Real.sin θ = Real.sin q := by rw [hθ, Real.Angle.sin_toReal, Real.Angle.sin_coe]
    have t2 : Real.cos θ = Real.cos q := by rw [hθ, Real.Angle.cos_toReal, Real.Angle.cos_coe]
    obtain ⟨t3, t4⟩ := Real.Angle.toReal_mem_Ioc (q : ℝ)
    rw [← hθ] at t3 t4
    have t5 := hf θ
    obtain ⟨p, u1, u2, u3⟩ : ∃ p : ℚ, -piD ≤ p ∧ p ≤ piD ∧ |(p : ℝ) - θ| ≤ 1 / 2 ^ 50 := by
      rw [abs_le] at t5
      by_cases c1 : f θ < -piD
      · refine ⟨-piD, le_rfl, by linarith, ?_⟩
        have c1' : ((f θ : ℚ) : ℝ) < -piD := by exact_mod_cast c1
        push_cast
        rw [abs_le]
        norm_num at *
        constructor <;> linarith
      · by_cases c2 : piD < f θ
        · refine ⟨piD, by linarith, le_rfl, ?_⟩
          have c2' : (piD : ℝ) < (f θ : ℚ) := by exact_mod_cast c2
          obtain ⟨t6, t7⟩ := t5
          rw [abs_le]
          norm_num at t6 t7 p2 ⊢
          constructor <;> linarith
        · refine ⟨f θ, not_lt.1 c1, not_lt.1 c2, ?_⟩
          rw [abs_le]
          norm_num at *
          constructor <;> linarith
    refine ⟨p, u1, u2, ?_, ?_⟩
    · rw [← t1]; exact (Real.abs_sin_sub_sin_le _ _).trans u3
    · rw [← t2]; exact (Real.abs_cos_sub_cos_le _ _).trans u3
  choose g hg using ph
  let m : Libm := ⟨FP,
    fun a => match a with
      | .fin q => .fin (if q = piD / 4 then sinPi4 else f (Real.sin q))
      | _ => .nan,
    fun a => match a with
      | .fin q => .fin (if q = piD / 4 then cosPi4 else f (Real.cos q))
      | _ => .nan,
    id,
    fun a => match a with
      | .fin q => .fin (if q = piD / 4 ∨ q = 0 then q else g q)
      | _ => .nan⟩
  have a4 : m.getAngle (.fin (piD / 4)) = .fin (piD / 4) := by
    show getAngleF (.fin (if piD / 4 = piD / 4 ∨ piD / 4 = 0 then piD / 4 else _)) = _
    rw [if_pos (.inl rfl), getAngleF_nonneg (by positivity)]
  have a0 : m.getAngle (.fin 0) = .fin 0 := by
    show getAngleF (.fin (if (0 : ℚ) = piD / 4 ∨ (0 : ℚ) = 0 then 0 else _)) = _
    rw [if_pos (.inr rfl), getAngleF_nonneg le_rfl]
  refine ⟨m, .fin (piD / 4), ?_, ?_, a4, ?_, ?_, ?_⟩
  · intro q _
    refine ⟨_, _, rfl, rfl, ?_, ?_⟩
    · split_ifs with h
      · rw [h]; exact hsin4
      · exact hf _
    · split_ifs with h
      · rw [h]; exact hcos4
      · exact hf _
  · intro q _
    refine ⟨_, rfl, ?_⟩
    split_ifs with h
    · rcases h with rfl | rfl
      · refine ⟨by linarith, by linarith, ?_, ?_⟩
        · rw [sub_self, abs_zero]; positivity
        · rw [sub_self, abs_zero]; positivity
      · refine ⟨by linarith, by linarith, ?_, ?_⟩
        · rw [sub_self, abs_zero]; positivity
        · rw [sub_self, abs_zero]; positivity
    · exact hg q
  · have e : FP.add binary64 (.fin (piD / 4)) (.fin 0) = .fin (piD / 4) := by decide +kernel
    show m.getAngle (FP.add binary64 (m.getAngle (.fin (piD / 4))) (m.getAngle (.fin 0))) = _
    rw [a4, a0, e, a4]
  · show FP.fin (if piD / 4 = piD / 4 then sinPi4 else _) = _
    rw [if_pos rfl]
  · show FP.fin (if piD / 4 = piD / 4 then cosPi4 else _) = _
    rw [if_pos rfl]

/-- the hypotheses of `C90_zero_step_moves` are met by an accurate library -/
example : ∃ (m : Libm) (s : CtraStateF m), AccurateTrig m ∧ AccuratePhase m ∧
    s.x = .fin 0 ∧ (s.next (.fin 0)).x = .fin 128 := by
  obtain ⟨m, yaw, h1, h2, h3, h4, h5, h6⟩ := exists_libm
  exact ⟨m, _, h1, h2, rfl, (C90_zero_step_moves m yaw h3 h4 h5 h6).1⟩

/-- the hypotheses of `C90_accuracy_turn` are met: 10 m/s, 1 m/s², yaw rate 1/2, one second -/
example : ∃ (m : Libm) (s : CtraStateF m) (X : ℚ), (s.next (.fin 1)).x = .fin X ∧
    |(X : ℝ) - (CtraState.next ⟨3, 4, 10, Angle.ofRad (piD / 4 : ℚ), 1 / 2, 1⟩ 1).x| ≤ 1 / 2 ^ 40 := by
  obtain ⟨m, yaw, h1, h2, h3, -, -, -⟩ := exists_libm
  have hh : (2 : ℚ) ^ (-1 : ℤ) = 1 / 2 := by norm_num
  have hs : FiniteCtra (m := m) ⟨.fin 3, .fin 4, .fin 10, yaw, .fin (1 / 2), .fin 1⟩ 3 4 10 (1 / 2) 1
      (piD / 4) :=
    ⟨rfl, rfl, rfl, rfl, rfl, h3, by rw [← hh]; exact isDouble_pow (by norm_num) (by norm_num)⟩
  have hpi : (0 : ℚ) < piD := by unfold piD; norm_num
  obtain ⟨X, Y, hX, -, h, -⟩ := C90_accuracy_turn h1 h2 _ hs (by positivity)
    (by have := piD_bounds.1; have := Real.pi_pos; push_cast; linarith)
    (by norm_num) (by norm_num) (by norm_num) (by norm_num) 1 (by norm_num) (by norm_num)
  refine ⟨m, _, X, hX, ?_⟩
  push_cast at h ⊢
  refine h.trans ?_
  norm_num

end Mot.Props
