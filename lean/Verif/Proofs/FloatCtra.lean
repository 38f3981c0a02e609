import Verif.Proofs.FloatMotion
import Verif.Props.FloatAngle
/-!
# Lemmas on prediction with acceleration in floating-point arithmetic
-/

namespace Mot

open Spec

/-! ### Infinite and undefined values -/

theorem fin_of_mul {f : Fmt} {a b : FP} {q : ℚ} (h : FP.mul f a b = .fin q) :
    (∃ p, a = .fin p) ∧ ∃ p, b = .fin p := by
  cases a <;> cases b <;> simp only [FP.mul, reduceCtorEq] at h
  all_goals first | (split at h <;> cases h) | exact ⟨⟨_, rfl⟩, _, rfl⟩

theorem fin_of_add {f : Fmt} {a b : FP} {q : ℚ} (h : FP.add f a b = .fin q) :
    (∃ p, a = .fin p) ∧ ∃ p, b = .fin p := by
  cases a <;> cases b <;> simp only [FP.add, reduceCtorEq] at h
  all_goals first | (split at h <;> cases h) | exact ⟨⟨_, rfl⟩, _, rfl⟩

/-- one over the square of a number up to 2⁻⁵¹² is infinite -/
theorem one_div_sq_inf {w : ℚ} (hw : |w| ≤ (2 : ℚ) ^ (-512 : ℤ)) :
    FP.div binary64 (.fin 1) (FP.mul binary64 (.fin w) (.fin w)) = .inf false := by
  have h1 : w * w ≤ (2 : ℚ) ^ (-1024 : ℤ) := by
    rw [← abs_mul_abs_self, show (-1024 : ℤ) = -512 + -512 by norm_num, zpow_add₀ (by norm_num)]
    exact mul_le_mul hw hw (abs_nonneg _) (Fmt.two_zpow_pos _).le
  have h0 : 0 ≤ w * w := mul_self_nonneg w
  have h2 : binary64.round (w * w) ≤ (2 : ℚ) ^ (-1024 : ℤ) := by
    have h3 := binary64.round_mono (by decide) h0 h1
    have h4 : binary64.round ((2 : ℚ) ^ (-1024 : ℤ)) = (2 : ℚ) ^ (-1024 : ℤ) := by
      have := binary64.round_exact (m := 1) (j := -1024) (by decide) (by decide)
      simpa using this
    rwa [h4] at h3
  have h3 := binary64.round_nonneg h0
  have e : FP.mul binary64 (.fin w) (.fin w) = .fin (binary64.round (w * w)) := by
    refine if_pos ?_
    rw [abs_of_nonneg h3]
    exact h2.trans_lt (zpow_lt_zpow_right₀ (by norm_num) (by decide))
  rw [e]
  show (if binary64.round (w * w) = 0 then _ else _) = _
  split_ifs with hz h5
  · norm_num at h5
  · simp
  · have hp : 0 < binary64.round (w * w) := lt_of_le_of_ne h3 (Ne.symm hz)
    have h5 : (2 : ℚ) ^ (1024 : ℤ) ≤ 1 / binary64.round (w * w) := by
      rw [le_div_iff₀ hp]
      refine (mul_le_mul_of_nonneg_left h2 (Fmt.two_zpow_pos _).le).trans ?_
      rw [← zpow_add₀ (by norm_num)]
      norm_num
    unfold FP.ofRat
    rw [if_neg]
    · rw [decide_eq_false]
      exact not_lt.2 (by positivity)
    · intro h
      have := (binary64.overflow_iff (by decide) (by decide) (by decide +kernel) (by decide) _).1 h
      rw [abs_of_pos (by positivity)] at this
      refine absurd (h5.trans_lt this) (not_lt.2 ?_)
      rw [show ((1024 : ℤ)) = 54 + 970 by norm_num, zpow_add₀ (by norm_num)]
      refine mul_le_mul_of_nonneg_right ?_ (Fmt.two_zpow_pos _).le
      show (2 : ℚ) ^ 54 - 1 ≤ (2 : ℚ) ^ (54 : ℤ)
      norm_num

/-! ### The branches -/

/-- the bracket of the equation for x, src/ctra_model.cpp:52-57 -/
def bracketX (vn v w a sb cb sa ca : FP) : FP :=
  FP.sub binary64 (FP.sub binary64 (FP.add binary64 (FP.mul binary64 (FP.mul binary64 vn w) sb)
    (FP.mul binary64 (FP.mul binary64 a cb) (.fin 1))) (FP.mul binary64 (FP.mul binary64 v w) sa))
    (FP.mul binary64 (FP.mul binary64 a ca) (.fin 1))

/-- the bracket of the equation for y, src/ctra_model.cpp:58-63 -/
def bracketY (vn v w a sb cb sa ca : FP) : FP :=
  FP.sub binary64 (FP.add binary64 (FP.add binary64 (FP.mul binary64 (FP.mul binary64 vn.neg w) cb)
    (FP.mul binary64 (FP.mul binary64 a sb) (.fin 1))) (FP.mul binary64 (FP.mul binary64 v w) ca))
    (FP.mul binary64 (FP.mul binary64 a sa) (.fin 1))

section
variable {m : Libm}

theorem CtraStateF.next_turn {s : CtraStateF m} {w : ℚ} (hw : IsDouble w)
    (h : s.yawRate = .fin w) (hw' : (2 : ℚ) ^ (-1022 : ℤ) ≤ |w|) (dt : FP) :
    (s.next dt).x = FP.add binary64 s.x (FP.mul binary64
        (FP.div binary64 (.fin 1) (FP.mul binary64 (.fin w) (.fin w)))
        (bracketX (FP.add binary64 s.v (FP.mul binary64 s.a dt)) s.v (.fin w) s.a
          (m.sin (m.getAngle (s.next dt).yaw)) (m.cos (m.getAngle (s.next dt).yaw))
          (m.sin (m.getAngle s.yaw)) (m.cos (m.getAngle s.yaw)))) ∧
      (s.next dt).y = FP.add binary64 s.y (FP.mul binary64
        (FP.div binary64 (.fin 1) (FP.mul binary64 (.fin w) (.fin w)))
        (bracketY (FP.add binary64 s.v (FP.mul binary64 s.a dt)) s.v (.fin w) s.a
          (m.sin (m.getAngle (s.next dt).yaw)) (m.cos (m.getAngle (s.next dt).yaw))
          (m.sin (m.getAngle s.yaw)) (m.cos (m.getAngle s.yaw)))) := by
  have : unitsEqF s.yawRate (.fin 0) = false := by
    rw [h, unitsEqF_zero hw]
    exact decide_eq_false (not_lt.2 hw')
  unfold CtraStateF.next
  simp only [this]
  rw [h]
  exact ⟨rfl, rfl⟩

theorem CtraStateF.next_yaw (s : CtraStateF m) (dt : FP) :
    (s.next dt).yaw = m.addAng s.yaw (m.ofRad (FP.mul binary64 s.yawRate dt)) := rfl

end

/-! ### Accuracy -/

/-- reading an angle made from `q` -/
theorem getAngle_ofRad_err {m : Libm} (hm : AccuratePhase m) {q : ℚ} (hq : |q| ≤ 2 ^ 21) :
    ∃ g : ℚ, m.getAngle (m.ofRad (.fin q)) = .fin g ∧ |g| ≤ 7 ∧
      |Real.sin g - Real.sin q| ≤ 16 / 2 ^ 53 ∧ |Real.cos g - Real.cos q| ≤ 16 / 2 ^ 53 := by
  obtain ⟨p, h0, h1, h2, h3, h4⟩ := hm q hq
  obtain ⟨g, g0, g1, g2, g3, g4⟩ := Props.C88_range p h1 h2
  refine ⟨g, by unfold Libm.getAngle; rw [h0, g0], ?_, ?_⟩
  · rw [abs_of_nonneg g1]
    have := Real.pi_lt_d2
    have : (g : ℝ) ≤ 7 := by linarith
    exact_mod_cast this
  · rcases lt_or_ge p 0 with hp | hp
    · have h5 := (g4 hp).2
      have h6 := Real.abs_sin_sub_sin_le g (p + 2 * Real.pi)
      have h7 := Real.abs_cos_sub_cos_le g (p + 2 * Real.pi)
      rw [Real.sin_add_two_pi] at h6
      rw [Real.cos_add_two_pi] at h7
      have h8 := abs_sub_le (Real.sin g) (Real.sin p) (Real.sin q)
      have h9 := abs_sub_le (Real.cos g) (Real.cos p) (Real.cos q)
      norm_num at *
      constructor <;> linarith
    · rw [g3 hp]
      norm_num at *
      constructor <;> linarith

/-- turning the heading -/
theorem addAng_err {m : Libm} (hm : AccuratePhase m) {yaw : m.Ang} {a w dt : ℚ}
    (ha : m.getAngle yaw = .fin a) (ha7 : |a| ≤ 7) (hΘ : |w * dt| ≤ 2 ^ 19) :
    ∃ b : ℚ, m.getAngle (m.addAng yaw (m.ofRad (FP.mul binary64 (.fin w) (.fin dt)))) = .fin b ∧
      |b| ≤ 7 ∧
      |Real.sin b - Real.sin (a + w * dt)| ≤ (64 + |(w * dt : ℝ)|) / 2 ^ 53 ∧
      |Real.cos b - Real.cos (a + w * dt)| ≤ (64 + |(w * dt : ℝ)|) / 2 ^ 53 := by
  have b1 := abs_b64_le hΘ (by norm_num)
  have e1 : FP.mul binary64 (.fin w) (.fin dt) = .fin (binary64.round (w * dt)) :=
    b64_ofRat (hΘ.trans (by norm_num))
  obtain ⟨g, g0, g1, g2, g3⟩ := getAngle_ofRad_err hm (b1.trans (by norm_num))
  have b2 : |a + g| ≤ 14 := (abs_add_le _ _).trans (by linarith)
  have e2 : FP.add binary64 (.fin a) (.fin g) = .fin (binary64.round (a + g)) :=
    b64_ofRat (b2.trans (by norm_num))
  obtain ⟨b, h0, h1, h2, h3⟩ := getAngle_ofRad_err hm (q := binary64.round (a + g))
    ((abs_b64_le b2 (by norm_num)).trans (by norm_num))
  refine ⟨b, ?_, h1, ?_⟩
  · unfold Libm.addAng
    rw [e1, g0, ha, e2, h0]
  have c1 := b64_cast (w * dt)
  have c2 := b64_cast (a + g)
  have b2' : |(a + g : ℝ)| ≤ 14 := by exact_mod_cast b2
  push_cast at c1 c2
  generalize ((binary64.round (w * dt) : ℚ) : ℝ) = δ at *
  generalize ((binary64.round (a + g) : ℚ) : ℝ) = y at *
  have s1 := Real.abs_sin_sub_sin_le y (a + g)
  have s2 := Real.abs_cos_sub_cos_le y (a + g)
  have s3 := Real.abs_sin_sub_sin_le (a + δ) (a + w * dt)
  have s4 := Real.abs_cos_sub_cos_le (a + δ) (a + w * dt)
  rw [add_sub_add_left_eq_sub] at s3 s4
  have t1 : ∀ {p q r t : ℝ}, |p| ≤ 1 → |q| ≤ 1 → |r| ≤ 16 / 2 ^ 53 → |t| ≤ 16 / 2 ^ 53 →
      |p * r + q * t| ≤ 32 / 2 ^ 53 ∧ |p * r - q * t| ≤ 32 / 2 ^ 53 := by
    intro p q r t hp hq hr ht
    have k1 : |p * r| ≤ 16 / 2 ^ 53 := by
      rw [abs_mul]
      exact (mul_le_mul hp hr (abs_nonneg _) (by norm_num)).trans (by norm_num)
    have k2 : |q * t| ≤ 16 / 2 ^ 53 := by
      rw [abs_mul]
      exact (mul_le_mul hq ht (abs_nonneg _) (by norm_num)).trans (by norm_num)
    exact ⟨(abs_add_le _ _).trans (by linarith), (abs_sub _ _).trans (by linarith)⟩
  have u1 : |Real.sin (a + g) - Real.sin (a + δ)| ≤ 32 / 2 ^ 53 := by
    rw [Real.sin_add, Real.sin_add]
    have := (t1 (Real.abs_sin_le_one a) (Real.abs_cos_le_one a) g3 g2).1
    rwa [show Real.sin a * Real.cos g + Real.cos a * Real.sin g - (Real.sin a * Real.cos δ +
      Real.cos a * Real.sin δ) = Real.sin a * (Real.cos g - Real.cos δ) + Real.cos a *
      (Real.sin g - Real.sin δ) by ring]
  have u2 : |Real.cos (a + g) - Real.cos (a + δ)| ≤ 32 / 2 ^ 53 := by
    rw [Real.cos_add, Real.cos_add]
    have := (t1 (Real.abs_cos_le_one a) (Real.abs_sin_le_one a) g3 g2).2
    rwa [show Real.cos a * Real.cos g - Real.sin a * Real.sin g - (Real.cos a * Real.cos δ -
      Real.sin a * Real.sin δ) = Real.cos a * (Real.cos g - Real.cos δ) - Real.sin a *
      (Real.sin g - Real.sin δ) by ring]
  have v1 := abs_add_le (Real.sin b - Real.sin y + (Real.sin y - Real.sin (a + g)))
    (Real.sin (a + g) - Real.sin (a + δ) + (Real.sin (a + δ) - Real.sin (a + w * dt)))
  have v2 := abs_add_le (Real.sin b - Real.sin y) (Real.sin y - Real.sin (a + g))
  have v3 := abs_add_le (Real.sin (a + g) - Real.sin (a + δ))
    (Real.sin (a + δ) - Real.sin (a + w * dt))
  have w1 := abs_add_le (Real.cos b - Real.cos y + (Real.cos y - Real.cos (a + g)))
    (Real.cos (a + g) - Real.cos (a + δ) + (Real.cos (a + δ) - Real.cos (a + w * dt)))
  have w2 := abs_add_le (Real.cos b - Real.cos y) (Real.cos y - Real.cos (a + g))
  have w3 := abs_add_le (Real.cos (a + g) - Real.cos (a + δ))
    (Real.cos (a + δ) - Real.cos (a + w * dt))
  simp only [sub_add_sub_cancel] at v1 v2 v3 w1 w2 w3
  clear g2 g3 t1 hΘ b1 b2 ha7 h1 g1
  norm_num at *
  constructor <;> linarith

/-- rounding an approximation -/
theorem step_err {e c A z z' r : ℝ} (hA : 1 / 2 ^ 193 ≤ A) (he' : e ≤ 2 ^ 40)
    (hz : |z' - z| ≤ e * A) (hc : |z| ≤ c * (2 ^ 53 * A))
    (hr : |r - z'| ≤ |z'| / 2 ^ 53 + 1 / 2 ^ 200) : |r - z| ≤ (e + c + 1 / 100) * A := by
  have h1 := abs_add_le (r - z') (z' - z)
  have h2 := abs_add_le (z' - z) z
  rw [sub_add_sub_cancel] at h1
  rw [sub_add_cancel] at h2
  have hA0 : 0 < A := lt_of_lt_of_le (by positivity) hA
  have h3 : e * A ≤ 2 ^ 40 * A := mul_le_mul_of_nonneg_right he' hA0.le
  rw [show c * (2 ^ 53 * A) = 2 ^ 53 * (c * A) by ring] at hc
  rw [add_mul, add_mul]
  generalize |r - z| = a1 at *
  generalize |r - z'| = a2 at *
  generalize |z' - z| = a3 at *
  generalize |z'| = a4 at *
  generalize |z| = a5 at *
  generalize e * A = a6 at *
  generalize c * A = a7 at *
  clear he'
  norm_num at *
  linarith

/-- the product of two approximations -/
theorem prod_err {e c h A p P s S : ℝ} (hA : 0 ≤ A) (he0 : 0 ≤ e) (hc0 : 0 ≤ c)
    (heh : e * h ≤ 2 ^ 40) (_hh0 : 0 ≤ h) (hp : |p - P| ≤ e * A) (hP : |P| ≤ c * (2 ^ 53 * A))
    (hs : |s - S| ≤ h / 2 ^ 53) (hS : |S| ≤ 1) :
    |p * s - P * S| ≤ (e + c * h + 1 / 100) * A ∧ |P * S| ≤ c * (2 ^ 53 * A) := by
  constructor
  · have h1 := abs_add_le ((p - P) * s) (P * (s - S))
    rw [show (p - P) * s + P * (s - S) = p * s - P * S by ring, abs_mul, abs_mul] at h1
    have h2 : |s| ≤ 1 + h / 2 ^ 53 := by
      have := abs_add_le (s - S) S
      rw [sub_add_cancel] at this
      linarith
    have h3 : |p - P| * |s| ≤ e * A * (1 + h / 2 ^ 53) :=
      mul_le_mul hp h2 (abs_nonneg _) (by positivity)
    have h4 : |P| * |s - S| ≤ c * (2 ^ 53 * A) * (h / 2 ^ 53) :=
      mul_le_mul hP hs (abs_nonneg _) (by positivity)
    have h5 : e * h * A ≤ 2 ^ 40 * A := mul_le_mul_of_nonneg_right heh hA
    have h6 : c * (2 ^ 53 * A) * (h / 2 ^ 53) = c * h * A := by ring
    have h7 : e * A * (1 + h / 2 ^ 53) = e * A + e * h * A / 2 ^ 53 := by ring
    have h8 : 2 ^ 40 * A / 2 ^ 53 ≤ 1 / 100 * A := by
      norm_num
      linarith
    have h9 : e * h * A / 2 ^ 53 ≤ 2 ^ 40 * A / 2 ^ 53 := by gcongr
    rw [h6] at h4
    rw [h7] at h3
    linarith
  · rw [abs_mul]
    exact (mul_le_of_le_one_right (abs_nonneg _) hS).trans hP

/-- the sum of two approximations -/
theorem add_err {e e' c c' A p P q Q : ℝ} (hp : |p - P| ≤ e * A) (hq : |q - Q| ≤ e' * A)
    (hP : |P| ≤ c * (2 ^ 53 * A)) (hQ : |Q| ≤ c' * (2 ^ 53 * A)) :
    (|p + q - (P + Q)| ≤ (e + e') * A ∧ |P + Q| ≤ (c + c') * (2 ^ 53 * A)) ∧
    |p - q - (P - Q)| ≤ (e + e') * A ∧ |P - Q| ≤ (c + c') * (2 ^ 53 * A) := by
  have h1 := abs_add_le (p - P) (q - Q)
  have h2 := abs_sub (p - P) (q - Q)
  have h3 := abs_add_le P Q
  have h4 := abs_sub P Q
  rw [add_mul, add_mul]
  refine ⟨⟨?_, by linarith⟩, ?_, by linarith⟩
  · rw [show p + q - (P + Q) = p - P + (q - Q) by ring]; linarith
  · rw [show p - q - (P - Q) = p - P - (q - Q) by ring]; linarith

/-- finite products and sums; `z` approximates `Z` up to `e * A` -/
structure Approx (A : ℝ) (z : ℚ) (Z e c : ℝ) : Prop where
  err : |(z : ℝ) - Z| ≤ e * A
  size : |Z| ≤ c * (2 ^ 53 * A)

section
variable {A : ℝ}

theorem Approx.le {z : ℚ} {Z e c : ℝ} (h : Approx A z Z e c) (hA : 0 ≤ A) (hA' : A ≤ 2 ^ 160)
    (he : e ≤ 2 ^ 40) (hc : c ≤ 2 ^ 10) : |z| ≤ 2 ^ 230 := by
  have h1 := abs_add_le ((z : ℝ) - Z) Z
  rw [sub_add_cancel] at h1
  have h2 : e * A ≤ 2 ^ 40 * A := mul_le_mul_of_nonneg_right he hA
  have h3 : c * (2 ^ 53 * A) ≤ 2 ^ 10 * (2 ^ 53 * A) := by
    have : (0 : ℝ) ≤ 2 ^ 53 * A := mul_nonneg (by norm_num) hA
    exact mul_le_mul_of_nonneg_right hc this
  have h4 := h.err
  have h5 := h.size
  have : |(z : ℝ)| ≤ 2 ^ 230 := by
    norm_num at *
    linarith
  exact_mod_cast this

theorem Approx.mono {z : ℚ} {Z e e' c c' : ℝ} (h : Approx A z Z e c) (hA : 0 ≤ A) (he : e ≤ e')
    (hc : c ≤ c') : Approx A z Z e' c' :=
  ⟨h.err.trans (mul_le_mul_of_nonneg_right he hA),
    h.size.trans (mul_le_mul_of_nonneg_right hc (by positivity))⟩

theorem Approx.round {z : ℚ} {Z e c : ℝ} (h : Approx A z Z e c) (hA : 1 / 2 ^ 193 ≤ A)
    (he' : e ≤ 2 ^ 40) : Approx A (binary64.round z) Z (e + c + 1 / 100) c :=
  ⟨step_err hA he' h.err h.size (b64_cast z), h.size⟩

theorem Approx.fin {z : ℚ} {Z e c : ℝ} (h : Approx A z Z e c) (hA : 1 / 2 ^ 193 ≤ A)
    (hA' : A ≤ 2 ^ 160) (he' : e ≤ 2 ^ 40) (hc : c ≤ 2 ^ 10) :
    ∃ r : ℚ, FP.ofRat binary64 z = .fin r ∧ Approx A r Z (e + c + 1 / 100) c :=
  ⟨_, b64_ofRat ((h.le (le_trans (by positivity) hA) hA' he' hc).trans (by norm_num)),
    h.round hA he'⟩

theorem Approx.mul_fin {p s : ℚ} {P S e c h : ℝ} (hp : Approx A p P e c) (hA : 1 / 2 ^ 193 ≤ A)
    (hA' : A ≤ 2 ^ 160) (he0 : 0 ≤ e) (hc0 : 0 ≤ c) (hh0 : 0 ≤ h) (heh : e * h ≤ 2 ^ 40)
    (hs : |(s : ℝ) - S| ≤ h / 2 ^ 53) (hS : |S| ≤ 1) (he' : e + c * h + 1 / 100 ≤ 2 ^ 40)
    (hc : c ≤ 2 ^ 10) :
    ∃ r : ℚ, FP.mul binary64 (.fin p) (.fin s) = .fin r ∧
      Approx A r (P * S) (e + c * h + c + 1 / 50) c := by
  obtain ⟨h1, h2⟩ := prod_err (le_trans (by positivity) hA) he0 hc0 heh hh0 hp.err hp.size hs hS
  have h3 : Approx A (p * s) (P * S) (e + c * h + 1 / 100) c := ⟨by push_cast; exact h1, h2⟩
  obtain ⟨r, hr, ha⟩ := h3.fin hA hA' he' hc
  exact ⟨r, hr, ha.mono (le_trans (by positivity) hA) (by linarith) le_rfl⟩

theorem Approx.mul_one_fin {p : ℚ} {P e c : ℝ} (hp : Approx A p P e c) (hA : 1 / 2 ^ 193 ≤ A)
    (hA' : A ≤ 2 ^ 160) (he' : e ≤ 2 ^ 40) (hc : c ≤ 2 ^ 10) :
    ∃ r : ℚ, FP.mul binary64 (.fin p) (.fin 1) = .fin r ∧ Approx A r P (e + c + 1 / 100) c := by
  show ∃ r, FP.ofRat binary64 (p * 1) = _ ∧ _
  rw [mul_one]
  exact hp.fin hA hA' he' hc

theorem Approx.add_fin {p q : ℚ} {P Q e c e' c' : ℝ} (hp : Approx A p P e c) (hq : Approx A q Q e' c')
    (hA : 1 / 2 ^ 193 ≤ A) (hA' : A ≤ 2 ^ 160) (he' : e + e' ≤ 2 ^ 40) (hc : c + c' ≤ 2 ^ 10) :
    (∃ r : ℚ, FP.add binary64 (.fin p) (.fin q) = .fin r ∧
      Approx A r (P + Q) (e + e' + (c + c') + 1 / 100) (c + c')) ∧
    ∃ r : ℚ, FP.sub binary64 (.fin p) (.fin q) = .fin r ∧
      Approx A r (P - Q) (e + e' + (c + c') + 1 / 100) (c + c') := by
  obtain ⟨⟨h1, h2⟩, h3, h4⟩ := add_err hp.err hq.err hp.size hq.size
  exact ⟨Approx.fin (A := A) (z := p + q) ⟨by push_cast; exact h1, h2⟩ hA hA' he' hc,
    Approx.fin (A := A) (z := p - q) ⟨by push_cast; exact h3, h4⟩ hA hA' he' hc⟩

/-- the bracket for x: `n` approximates the product of new speed and yaw rate -/
theorem bracket_fin {n u a sb cb sa ca : ℚ} {N U Sb Cb Sa Ca η : ℝ} (hA : 1 / 2 ^ 193 ≤ A)
    (hA' : A ≤ 2 ^ 160) (hn : Approx A n N (7 / 2) 1) (hu : Approx A u U (11 / 10) 1)
    (ha : Approx A a a 0 1) (hη : 0 ≤ η) (hη' : η ≤ 2 ^ 30)
    (hsb : |(sb : ℝ) - Sb| ≤ η / 2 ^ 53) (hcb : |(cb : ℝ) - Cb| ≤ η / 2 ^ 53)
    (hsa : |(sa : ℝ) - Sa| ≤ 2 / 2 ^ 53) (hca : |(ca : ℝ) - Ca| ≤ 2 / 2 ^ 53)
    (hSb : |Sb| ≤ 1) (hCb : |Cb| ≤ 1) (hSa : |Sa| ≤ 1) (hCa : |Ca| ≤ 1) :
    ∃ r : ℚ, FP.sub binary64 (FP.sub binary64 (FP.add binary64
        (FP.mul binary64 (.fin n) (.fin sb))
        (FP.mul binary64 (FP.mul binary64 (.fin a) (.fin cb)) (.fin 1)))
        (FP.mul binary64 (.fin u) (.fin sa)))
        (FP.mul binary64 (FP.mul binary64 (.fin a) (.fin ca)) (.fin 1)) = .fin r ∧
      Approx A r (N * Sb + a * Cb - U * Sa - a * Ca) (25 + 2 * η) 4 := by
  have hA0 : 0 ≤ A := le_trans (by positivity) hA
  have k0 : (0 : ℝ) ≤ 2 ^ 30 := by positivity
  obtain ⟨t1, e1, a1⟩ := hn.mul_fin hA hA' (by norm_num) (by norm_num) hη
    (by norm_num at hη' ⊢; linarith) hsb hSb (by norm_num at hη' ⊢; linarith) (by norm_num)
  obtain ⟨t2', e2', a2'⟩ := ha.mul_fin hA hA' (by norm_num) (by norm_num) hη
    (by norm_num) hcb hCb (by norm_num at hη' ⊢; linarith) (by norm_num)
  obtain ⟨t2, e2, a2⟩ := a2'.mul_one_fin hA hA' (by norm_num at hη' ⊢; linarith) (by norm_num)
  obtain ⟨t3, e3, a3⟩ := hu.mul_fin hA hA' (by norm_num) (by norm_num) (by norm_num)
    (by norm_num) hsa hSa (by norm_num) (by norm_num)
  obtain ⟨t4', e4', a4'⟩ := ha.mul_fin hA hA' (by norm_num) (by norm_num) (by norm_num)
    (by norm_num) hca hCa (by norm_num) (by norm_num)
  obtain ⟨t4, e4, a4⟩ := a4'.mul_one_fin hA hA' (by norm_num) (by norm_num)
  obtain ⟨s1, f1, b1⟩ := (a1.add_fin a2 hA hA' (by norm_num at hη' ⊢; linarith) (by norm_num)).1
  obtain ⟨s2, f2, b2⟩ := (b1.add_fin a3 hA hA' (by norm_num at hη' ⊢; linarith) (by norm_num)).2
  obtain ⟨s3, f3, b3⟩ := (b2.add_fin a4 hA hA' (by norm_num at hη' ⊢; linarith) (by norm_num)).2
  refine ⟨s3, by rw [e1, e2', e2, e3, e4', e4, f1, f2, f3], ?_⟩
  refine b3.mono hA0 ?_ (by norm_num)
  norm_num
  linarith

end

/-- the new speed times the yaw rate -/
theorem speed_fin {v a w dt : ℚ} {M : ℝ} (hM : |(v * w : ℝ)| + |(a * dt * w : ℝ)| + 1 / 2 ^ 100 ≤ M)
    (hw1 : |w| ≤ 2 ^ 20) (hv : |v| ≤ 2 ^ 150) (had : |a * dt| ≤ 2 ^ 150) :
    ∃ n : ℚ, FP.add binary64 (.fin v) (FP.mul binary64 (.fin a) (.fin dt)) = .fin n ∧
      Approx (M / 2 ^ 53) (n * w) ((v + a * dt) * w) (11 / 5) 1 := by
  have e1 : FP.mul binary64 (.fin a) (.fin dt) = .fin (binary64.round (a * dt)) :=
    b64_ofRat (had.trans (by norm_num))
  have b1 := abs_b64_le had (by norm_num)
  have b2 : |v + binary64.round (a * dt)| ≤ 2 ^ 152 := by
    refine (abs_add_le _ _).trans ?_
    norm_num at *
    linarith
  have e2 : FP.add binary64 (.fin v) (.fin (binary64.round (a * dt))) =
      .fin (binary64.round (v + binary64.round (a * dt))) := b64_ofRat (b2.trans (by norm_num))
  refine ⟨_, by rw [e1, e2], ?_, ?_⟩
  · have c1 := b64_cast (a * dt)
    have c2 := b64_cast (v + binary64.round (a * dt))
    push_cast at c1 c2 ⊢
    generalize ((binary64.round (a * dt) : ℚ) : ℝ) = δ at *
    generalize ((binary64.round (v + binary64.round (a * dt)) : ℚ) : ℝ) = y at *
    have hw' : |(w : ℝ)| ≤ 2 ^ 20 := by exact_mod_cast hw1
    have h1 : |y - (v + a * dt)| ≤ (21 / 10 * (|(v : ℝ)| + |(a * dt : ℝ)|)) / 2 ^ 53 +
        3 / 2 ^ 200 := by
      have h1 := abs_add_le (y - (v + δ)) (δ - a * dt)
      rw [show y - (v + δ) + (δ - a * dt) = y - (v + a * dt) by ring] at h1
      have h2 := abs_add_le (v : ℝ) δ
      have h3 := abs_add_le (δ - a * dt) (a * dt)
      rw [sub_add_cancel] at h3
      have := abs_nonneg (v : ℝ)
      have := abs_nonneg (a * dt : ℝ)
      generalize |y - (v + a * dt)| = z1 at *
      generalize |y - (v + δ)| = z2 at *
      generalize |δ - a * dt| = z3 at *
      generalize |(v : ℝ) + δ| = z4 at *
      generalize |(v : ℝ)| = z5 at *
      generalize |(a * dt : ℝ)| = z6 at *
      generalize |δ| = z7 at *
      clear hM hw1 hv had b1 b2 hw'
      norm_num at *
      linarith
    rw [← sub_mul, abs_mul]
    refine (mul_le_mul_of_nonneg_right h1 (abs_nonneg _)).trans ?_
    have h2 : ((21 / 10 * (|(v : ℝ)| + |(a * dt : ℝ)|)) / 2 ^ 53 + 3 / 2 ^ 200) * |(w : ℝ)| =
        21 / 10 * (|(v * w : ℝ)| + |(a * dt * w : ℝ)|) / 2 ^ 53 + 3 / 2 ^ 200 * |(w : ℝ)| := by
      rw [abs_mul (v : ℝ), abs_mul ((a : ℝ) * dt)]
      ring
    rw [h2]
    clear h1 h2 c1 c2 hw1 hv had b1 b2
    have := abs_nonneg (v * w : ℝ)
    have := abs_nonneg (a * dt * w : ℝ)
    generalize |(v * w : ℝ)| = z1 at *
    generalize |(a * dt * w : ℝ)| = z2 at *
    generalize |(w : ℝ)| = z3 at *
    norm_num at *
    linarith
  · have h1 := abs_add_le (v * w : ℝ) (a * dt * w)
    rw [← add_mul] at h1
    have : (0 : ℝ) < 1 / 2 ^ 100 := by positivity
    rw [one_mul, mul_div_cancel₀ _ (by positivity)]
    linarith

/-- one over the square of the yaw rate -/
theorem inv_sq_fin {w : ℚ} (hw : 1 / 2 ^ 60 ≤ |w|) (hw1 : |w| ≤ 2 ^ 20) :
    ∃ k : ℚ, FP.div binary64 (.fin 1) (FP.mul binary64 (.fin w) (.fin w)) = .fin k ∧
      |(k : ℝ) - 1 / (w * w)| ≤ 11 / 5 / 2 ^ 53 * (1 / (w * w)) := by
  have hlo : 1 / 2 ^ 120 ≤ w * w := by
    rw [← abs_mul_abs_self]
    refine le_trans ?_ (mul_le_mul hw hw (by norm_num) (abs_nonneg _))
    norm_num
  have hhi : w * w ≤ 2 ^ 40 := by
    rw [← abs_mul_abs_self]
    refine (mul_le_mul hw1 hw1 (abs_nonneg _) (by norm_num)).trans ?_
    norm_num
  have hpos : 0 < w * w := lt_of_lt_of_le (by norm_num) hlo
  have hw0 : w ≠ 0 := fun h => by rw [h, mul_zero] at hpos; exact lt_irrefl _ hpos
  have c1 := b64_std (w * w)
  rw [abs_of_pos hpos] at c1
  have c1' : |binary64.round (w * w) - w * w| ≤ 101 / 100 / 2 ^ 53 * (w * w) := by
    norm_num at *
    linarith
  have e1 : FP.mul binary64 (.fin w) (.fin w) = .fin (binary64.round (w * w)) :=
    b64_ofRat (by rw [abs_of_pos hpos]; exact hhi.trans (by norm_num))
  set q := binary64.round (w * w) with hq
  have hq1 : 99 / 100 * (w * w) ≤ q := by
    have := (abs_le.1 c1').1
    norm_num at *
    linarith
  have hq0 : 0 < q := lt_of_lt_of_le (by positivity) hq1
  have h2 : |1 / q| ≤ 2 ^ 121 := by
    rw [abs_of_pos (by positivity), div_le_iff₀ hq0]
    norm_num at *
    linarith
  refine ⟨binary64.round (1 / q), ?_, ?_⟩
  · rw [e1]
    show (if q = 0 then _ else _) = _
    rw [if_neg hq0.ne']
    exact b64_ofRat (h2.trans (by norm_num))
  have key : |binary64.round (1 / q) - 1 / (w * w)| ≤ 11 / 5 / 2 ^ 53 * (1 / (w * w)) := by
    have c2 := b64_std (1 / q)
    have h3 : |1 / q - 1 / (w * w)| ≤ 103 / 100 / 2 ^ 53 * (1 / (w * w)) := by
      rw [div_sub_div _ _ hq0.ne' hpos.ne', one_mul, mul_one, abs_div, abs_sub_comm,
        abs_of_pos (mul_pos hq0 hpos), div_le_iff₀ (mul_pos hq0 hpos)]
      refine c1'.trans ?_
      rw [show 103 / 100 / 2 ^ 53 * (1 / (w * w)) * (q * (w * w)) = 103 / 100 / 2 ^ 53 * q by
        field_simp]
      norm_num at *
      linarith
    have h4 := abs_add_le (binary64.round (1 / q) - 1 / q) (1 / q - 1 / (w * w))
    have h5 := abs_add_le (1 / q - 1 / (w * w)) (1 / (w * w))
    rw [sub_add_sub_cancel] at h4
    rw [sub_add_cancel, abs_of_pos (show 0 < 1 / (w * w) by positivity)] at h5
    have h6 : 1 / 2 ^ 40 ≤ 1 / (w * w) := one_div_le_one_div_of_le hpos hhi
    clear c1 c1' hlo hhi hw hw1 hq hq0 hq1 e1 h2
    generalize |binary64.round (1 / q) - 1 / (w * w)| = z1 at *
    generalize |binary64.round (1 / q) - 1 / q| = z2 at *
    generalize |1 / q - 1 / (w * w)| = z3 at *
    generalize |1 / q| = z4 at *
    generalize 1 / (w * w) = z5 at *
    norm_num at *
    linarith
  have h := Rat.cast_le (K := ℝ).2 key
  push_cast at h
  exact h

/-- the bracket times one over the square, added to the coordinate -/
theorem ctra_sum_fin {x k r : ℚ} {A K R e : ℝ} (hK : 1 / 2 ^ 40 ≤ K) (hK' : K ≤ 2 ^ 120)
    (hA : 1 / 2 ^ 153 ≤ A) (hA' : A ≤ 2 ^ 27) (_he0 : 0 ≤ e) (he : e ≤ 2 ^ 35)
    (hk : |(k : ℝ) - K| ≤ 11 / 5 / 2 ^ 53 * K) (hr : Approx A r R e 4) (hx : |x| ≤ 2 ^ 200) :
    ∃ X : ℚ, FP.add binary64 (.fin x) (FP.mul binary64 (.fin k) (.fin r)) = .fin X ∧
      |(X : ℝ) - (x + K * R)| ≤ |(x : ℝ)| / 2 ^ 53 + (e + 18) * (K * A) := by
  have hK0 : 0 < K := lt_of_lt_of_le (by positivity) hK
  have hA0 : 0 < A := lt_of_lt_of_le (by positivity) hA
  have hB : 1 / 2 ^ 193 ≤ K * A := by
    refine le_trans ?_ (mul_le_mul hK hA (by positivity) hK0.le)
    norm_num
  have hB' : K * A ≤ 2 ^ 147 := by
    refine (mul_le_mul hK' hA' hA0.le (by norm_num)).trans ?_
    norm_num
  have hB0 : 0 < K * A := mul_pos hK0 hA0
  have h1 : Approx (K * A) (k * r) (K * R) (e + 9) 4 := by
    constructor
    · push_cast
      have h1 := abs_add_le ((k - K) * r) (K * (r - R))
      rw [show (k - K) * r + K * (r - R) = (k : ℝ) * r - K * R by ring, abs_mul, abs_mul,
        abs_of_pos hK0] at h1
      have h2 := abs_add_le (r - R) R
      rw [sub_add_cancel] at h2
      have h3 : |(k : ℝ) - K| * |(r : ℝ)| ≤ 11 / 5 / 2 ^ 53 * K * (4 * (2 ^ 53 * A) + e * A) :=
        mul_le_mul hk (by linarith [hr.err, hr.size]) (abs_nonneg _) (by positivity)
      have h4 : K * |(r : ℝ) - R| ≤ K * (e * A) := mul_le_mul_of_nonneg_left hr.err hK0.le
      have h5 : e * (K * A) ≤ 2 ^ 35 * (K * A) := mul_le_mul_of_nonneg_right he hB0.le
      have h6 : 11 / 5 / 2 ^ 53 * K * (4 * (2 ^ 53 * A) + e * A) =
        44 / 5 * (K * A) + 11 / 5 / 2 ^ 53 * (e * (K * A)) := by ring
      have h7 : K * (e * A) = e * (K * A) := by ring
      rw [h6] at h3
      rw [h7] at h4
      rw [add_mul]
      clear h2 hk h6 h7 hK hK' hA hA' hB hB'
      generalize |(k : ℝ) - K| * |(r : ℝ)| = z1 at *
      generalize K * |(r : ℝ) - R| = z2 at *
      generalize e * (K * A) = z3 at *
      generalize K * A = z4 at *
      norm_num at *
      linarith
    · rw [abs_mul, abs_of_pos hK0]
      have := mul_le_mul_of_nonneg_left hr.size hK0.le
      linarith
  obtain ⟨d, hd, h2⟩ := h1.fin hB (hB'.trans (by norm_num)) (by norm_num at *; linarith) (by norm_num)
  have he2 : e * (K * A) ≤ 2 ^ 35 * (K * A) := mul_le_mul_of_nonneg_right he hB0.le
  have h3 := abs_add_le (d - K * R) (K * R)
  rw [sub_add_cancel] at h3
  have h4 := h2.err
  have h5 := h2.size
  have h6 : |(d : ℝ)| ≤ (2 ^ 53 * 4 + 2 ^ 36) * (K * A) := by
    have : (e + 9 + 4 + 1 / 100) * (K * A) ≤ 2 ^ 36 * (K * A) := by
      refine mul_le_mul_of_nonneg_right ?_ hB0.le
      norm_num at *
      linarith
    linarith
  have hdb : |d| ≤ 2 ^ 210 := by
    have : |(d : ℝ)| ≤ 2 ^ 210 := by
      clear h2 h3 h4 h5 hk
      generalize K * A = B at *
      norm_num at *
      linarith
    exact_mod_cast this
  refine ⟨_, by rw [show FP.mul binary64 (.fin k) (.fin r) = .fin d from hd, (Mot.add_fin hx hdb).1], ?_⟩
  have h7 := sum_err (x := (x : ℝ)) (X := (binary64.round (x + d) : ℚ)) (r := d) (R := K * R)
    (A := (e + 9 + 4 + 1 / 100) * (K * A)) (B := (2 ^ 53 * 4 + 2 ^ 36) * (K * A))
    (ε := 0) (ε' := 0) (by simpa using b64_cast (x + d)) (by rw [add_zero]; exact h4)
    (by rw [add_zero]; exact h6)
  refine h7.trans ?_
  rw [add_mul e, add_mul (e + 9 + 4), add_mul (e + 9), add_mul e]
  clear h1 h2 h3 h4 h5 h6 h7 hk hr hK hK' hA hA' hd hx hdb
  generalize e * (K * A) = z1 at *
  generalize K * A = z2 at *
  norm_num at *
  linarith

theorem sub_neg_fp (f : Fmt) (a b : FP) : FP.sub f a b.neg = FP.add f a b := by
  cases a with
  | inf s => cases b with
    | inf t => cases s <;> cases t <;> rfl
    | _ => rfl
  | nan => cases b <;> rfl
  | fin a => cases b with
    | fin b => simp [FP.sub, FP.add, FP.neg, sub_neg_eq_add]
    | nan => rfl
    | inf t => simp [FP.sub, FP.add, FP.neg]

theorem neg_mul_fin (u c : ℚ) :
    FP.mul binary64 (.fin (-u)) (.fin c) = (FP.mul binary64 (.fin u) (.fin c)).neg := by
  show FP.ofRat _ (-u * c) = (FP.ofRat _ (u * c)).neg
  rw [neg_mul, ofRat_neg]

end Mot
