import Verif.Proofs.FloatMean
/-!
# Computed headings against exact headings
-/

namespace Mot

open Spec Mot.Props

/-- reading an angle made from `q`, with its range -/
theorem getAngle_ofRad_dir {m : Libm} (hm : AccuratePhase m) {q : ℚ} (hq : |q| ≤ 2 ^ 21) :
    ∃ g : ℚ, m.getAngle (m.ofRad (.fin q)) = .fin g ∧ 0 ≤ g ∧ (g : ℝ) < 2 * Real.pi ∧
      SameDirection g q (16 / 2 ^ 53) := by
  obtain ⟨g, h1, -, h3⟩ := getAngle_ofRad_err hm hq
  obtain ⟨p, p0, p1, p2, -⟩ := hm q hq
  obtain ⟨g', g0, g1, g2, -⟩ := C88_range p p1 p2
  have : m.getAngle (m.ofRad (.fin q)) = .fin g' := by unfold Libm.getAngle; rw [p0, g0]
  rw [h1] at this
  cases this
  exact ⟨g, h1, g1, g2, h3⟩

theorem Spec.SameDirection.symm {a b ε : ℝ} (h : SameDirection a b ε) : SameDirection b a ε :=
  ⟨by rw [abs_sub_comm]; exact h.1, by rw [abs_sub_comm]; exact h.2⟩

theorem Spec.SameDirection.trans {a b c ε δ : ℝ} (h : SameDirection a b ε) (h' : SameDirection b c δ) :
    SameDirection a c (ε + δ) :=
  ⟨(abs_sub_le _ _ _).trans (add_le_add h.1 h'.1), (abs_sub_le _ _ _).trans (add_le_add h.2 h'.2)⟩

theorem Spec.SameDirection.of_near {a b ε : ℝ} (h : |a - b| ≤ ε) : SameDirection a b ε :=
  ⟨(Real.abs_sin_sub_sin_le _ _).trans h, (Real.abs_cos_sub_cos_le _ _).trans h⟩

theorem Spec.SameDirection.mono {a b ε δ : ℝ} (h : SameDirection a b ε) (h' : ε ≤ δ) : SameDirection a b δ :=
  ⟨h.1.trans h', h.2.trans h'⟩

theorem Spec.SameDirection.neg {a b ε : ℝ} (h : SameDirection a b ε) : SameDirection (-a) (-b) ε := by
  refine ⟨?_, by rw [Real.cos_neg, Real.cos_neg]; exact h.2⟩
  rw [Real.sin_neg, Real.sin_neg, neg_sub_neg, abs_sub_comm]
  exact h.1

theorem Spec.SameDirection.add_left (a : ℝ) {u v ε : ℝ} (h : SameDirection u v ε) :
    SameDirection (a + u) (a + v) (2 * ε) := by
  have hε : 0 ≤ ε := (abs_nonneg _).trans h.1
  have k : ∀ {p r : ℝ}, |p| ≤ 1 → |r| ≤ ε → |p * r| ≤ ε := fun hp hr => by
    rw [abs_mul]
    exact (mul_le_mul hp hr (abs_nonneg _) (by norm_num)).trans (by rw [one_mul])
  have s1 := Real.abs_sin_le_one a
  have s2 := Real.abs_cos_le_one a
  constructor
  · rw [Real.sin_add, Real.sin_add, show Real.sin a * Real.cos u + Real.cos a * Real.sin u -
      (Real.sin a * Real.cos v + Real.cos a * Real.sin v) = Real.sin a * (Real.cos u - Real.cos v) +
      Real.cos a * (Real.sin u - Real.sin v) by ring]
    refine (abs_add_le _ _).trans ?_
    linarith [k s1 h.2, k s2 h.1]
  · rw [Real.cos_add, Real.cos_add, show Real.cos a * Real.cos u - Real.sin a * Real.sin u -
      (Real.cos a * Real.cos v - Real.sin a * Real.sin v) = Real.cos a * (Real.cos u - Real.cos v) -
      Real.sin a * (Real.sin u - Real.sin v) by ring]
    refine (abs_sub _ _).trans ?_
    linarith [k s2 h.2, k s1 h.1]

/-- adding and subtracting an angle made from a number -/
theorem addSub_dir {m : Libm} (hm : AccuratePhase m) {yaw : m.Ang} {a δ : ℚ}
    (ha : m.getAngle yaw = .fin a) (ha7 : |a| ≤ 7) (hδ : |δ| ≤ 2 ^ 21) :
    (∃ b : ℚ, m.getAngle (m.addAng yaw (m.ofRad (.fin δ))) = .fin b ∧ 0 ≤ b ∧
      (b : ℝ) < 2 * Real.pi ∧ SameDirection b (a + δ) (64 / 2 ^ 53)) ∧
    (∃ b : ℚ, m.getAngle (m.subAng yaw (m.ofRad (.fin δ))) = .fin b ∧ 0 ≤ b ∧
      (b : ℝ) < 2 * Real.pi ∧ SameDirection b (a - δ) (64 / 2 ^ 53)) := by
  obtain ⟨g, g0, g1, g2, g3⟩ := getAngle_ofRad_dir hm hδ
  have hg7 : |g| ≤ 7 := by
    rw [abs_of_nonneg g1]
    have := Real.pi_lt_d2
    have : (g : ℝ) ≤ 7 := by linarith
    exact_mod_cast this
  have key : ∀ y : ℚ, |y| ≤ 14 → ∃ b : ℚ, m.getAngle (m.ofRad (FP.ofRat binary64 y)) = .fin b ∧ 0 ≤ b ∧
      (b : ℝ) < 2 * Real.pi ∧ SameDirection b y (32 / 2 ^ 53) := by
    intro y hy
    rw [b64_ofRat (hy.trans (by norm_num))]
    obtain ⟨b, h0, h1, h2, h3⟩ := getAngle_ofRad_dir hm (q := binary64.round y)
      ((abs_b64_le hy (by norm_num)).trans (by norm_num))
    refine ⟨b, h0, h1, h2, (h3.trans (SameDirection.of_near (b64_cast y))).mono ?_⟩
    have : |(y : ℝ)| ≤ 14 := by exact_mod_cast hy
    norm_num
    linarith
  constructor
  · obtain ⟨b, h0, h1, h2, h3⟩ := key (a + g) ((abs_add_le _ _).trans (by linarith))
    refine ⟨b, ?_, h1, h2, ?_⟩
    · unfold Libm.addAng
      rw [g0, ha]
      exact h0
    · rw [Rat.cast_add] at h3
      exact (h3.trans (g3.add_left a)).mono (by norm_num)
  · obtain ⟨b, h0, h1, h2, h3⟩ := key (a - g) ((abs_sub _ _).trans (by linarith))
    refine ⟨b, ?_, h1, h2, ?_⟩
    · unfold Libm.subAng
      rw [g0, ha]
      exact h0
    · rw [Rat.cast_sub, sub_eq_add_neg] at h3
      rw [sub_eq_add_neg]
      exact (h3.trans (g3.neg.add_left a)).mono (by norm_num)

/-- the heading after a step -/
theorem turn_dir {m : Libm} (hm : AccuratePhase m) {yaw : m.Ang} {a w dt : ℚ}
    (ha : m.getAngle yaw = .fin a) (ha7 : |a| ≤ 7) (hΘ : |w * dt| ≤ 2 ^ 19) :
    ∃ b : ℚ, m.getAngle (m.addAng yaw (m.ofRad (FP.mul binary64 (.fin w) (.fin dt)))) = .fin b ∧
      0 ≤ b ∧ (b : ℝ) < 2 * Real.pi ∧ SameDirection b (a + w * dt) (1 / 2 ^ 33) := by
  have e1 : FP.mul binary64 (.fin w) (.fin dt) = .fin (binary64.round (w * dt)) :=
    b64_ofRat (hΘ.trans (by norm_num))
  obtain ⟨b, h0, h1, h2, h3⟩ := (addSub_dir hm ha ha7 (δ := binary64.round (w * dt))
    ((abs_b64_le hΘ (by norm_num)).trans (by norm_num))).1
  refine ⟨b, by rw [e1]; exact h0, h1, h2, (h3.trans (SameDirection.of_near
    (ε := 1 / 2 ^ 34 + 1 / 2 ^ 200) ?_)).mono (by norm_num)⟩
  rw [add_sub_add_left_eq_sub, ← Rat.cast_mul]
  refine (b64_cast _).trans ?_
  have : |((w * dt : ℚ) : ℝ)| ≤ 2 ^ 19 := by exact_mod_cast hΘ
  norm_num at this ⊢
  linarith

/-- numbers in ±3.1417 and ±3.14 with the same direction are near each other -/
theorem near_of_dir {c t ε : ℝ} (hc : |c| ≤ 31417 / 10000) (ht : |t| ≤ 314 / 100) (hε : ε ≤ 1 / 2 ^ 20)
    (h : SameDirection c t ε) : |c - t| ≤ 4 * ε := by
  have hε0 : 0 ≤ ε := (abs_nonneg _).trans h.1
  set θ := |c - t| with hθ
  have hθ0 : 0 ≤ θ := abs_nonneg _
  have hθ1 : θ ≤ 62817 / 10000 := (abs_sub _ _).trans (by linarith)
  have e1 : 2 * Real.sin (θ / 2) ^ 2 = 1 - Real.cos (c - t) := by
    rw [← Real.cos_abs (c - t), ← hθ]
    have := Real.sin_sq_add_cos_sq (θ / 2)
    have e : Real.cos θ = 2 * Real.cos (θ / 2) ^ 2 - 1 := by
      rw [← Real.cos_two_mul]
      congr 1
      ring
    linarith
  have e2 : 1 - Real.cos (c - t) = ((Real.cos c - Real.cos t) ^ 2 + (Real.sin c - Real.sin t) ^ 2) / 2 := by
    rw [Real.cos_sub]
    have h1 := Real.sin_sq_add_cos_sq c
    have h2 := Real.sin_sq_add_cos_sq t
    linear_combination -(h1 + h2) / 2
  have e3 : (Real.cos c - Real.cos t) ^ 2 ≤ ε ^ 2 := sq_le_sq' (by linarith [(abs_le.1 h.2).1]) (abs_le.1 h.2).2
  have e4 : (Real.sin c - Real.sin t) ^ 2 ≤ ε ^ 2 := sq_le_sq' (by linarith [(abs_le.1 h.1).1]) (abs_le.1 h.1).2
  have e5 : Real.sin (θ / 2) ^ 2 ≤ ε ^ 2 := by nlinarith [sq_nonneg ε]
  have e6 : Real.sin (θ / 2) ≤ ε := abs_le_of_sq_le_sq' e5 hε0 |>.2
  have p1 := Real.pi_gt_d4
  have p2 := Real.pi_lt_d4
  rcases le_or_gt (θ / 2) (Real.pi / 2) with h1 | h1
  · have := Real.mul_le_sin (by linarith : 0 ≤ θ / 2) h1
    have h3 : θ / 2 ≤ Real.pi / 2 * ε := by
      rw [div_mul_eq_mul_div, div_le_iff₀ Real.pi_pos] at this
      nlinarith
    nlinarith
  · exfalso
    have := Real.mul_le_sin (x := Real.pi - θ / 2) (by linarith) (by linarith)
    rw [Real.sin_pi_sub, div_mul_eq_mul_div, div_le_iff₀ Real.pi_pos] at this
    have h4 : Real.sin (θ / 2) * Real.pi ≤ 1 / 2 ^ 20 * 4 := mul_le_mul (e6.trans hε) (by linarith) Real.pi_pos.le (by norm_num)
    norm_num at h4
    linarith

theorem yawCutF_eq : yawCutF = .fin (3537118876014453 / 1125899906842624) := by decide +kernel

/-- the entry of the matrix of points made from a heading in [0, 2π) -/
theorem rotate_entry {n : ℕ} {row : Fin n → FP} {i : Fin n} (hi : i.1 = 3) {b : ℚ} (hb : 0 ≤ b)
    (hb' : (b : ℝ) < 2 * Real.pi) (hr : row i = FP.conv binary32 (.fin b)) :
    ∃ (c : ℚ) (c0 : ℝ), rotateYawF row i = .fin c ∧ |c| ≤ 4 ∧ (c0 = b ∨ c0 = b - 2 * Real.pi) ∧
      |c0| ≤ 31417 / 10000 ∧ |(c : ℝ) - c0| ≤ 12 / 2 ^ 24 := by
  have p1 := Real.pi_gt_d20
  have p2 := Real.pi_lt_d20
  have hb7R : (b : ℝ) < 62832 / 10000 := by norm_num at p2 ⊢; linarith
  have hb7 : b < 62832 / 10000 := (Rat.cast_lt (K := ℝ)).1 (by push_cast; exact hb7R)
  have e1 := b32_std b
  rw [abs_of_nonneg hb] at e1
  have hr' : row i = .fin (binary32.round b) := by
    rw [hr]
    exact b32_ofRat (by rw [abs_of_nonneg hb]; norm_num; linarith)
  generalize binary32.round b = r at *
  have e2 : |r - b| ≤ 63 / 10 / 2 ^ 24 := e1.trans (by norm_num at hb7 ⊢; linarith)
  have e2R : |(r : ℝ) - b| ≤ 63 / 10 / 2 ^ 24 := by
    have := (Rat.cast_le (K := ℝ)).2 e2
    push_cast at this
    exact this
  obtain ⟨e3, e4⟩ := abs_le.1 e2
  obtain ⟨e3R, e4R⟩ := abs_le.1 e2R
  unfold rotateYawF
  rw [hr', yawCutF_eq]
  have hgt : FP.gt (.fin r) (.fin (3537118876014453 / 1125899906842624)) =
      decide (3537118876014453 / 1125899906842624 < r) := rfl
  rcases le_or_gt r (3537118876014453 / 1125899906842624) with h | h
  · rw [if_neg (by rw [hgt, decide_eq_false (not_lt.2 h)]; simp)]
    have hR : (r : ℝ) ≤ 3537118876014453 / 1125899906842624 := by
      have := (Rat.cast_le (K := ℝ)).2 h
      push_cast at this
      exact this
    refine ⟨r, b, rfl, ?_, .inl rfl, ?_, e2R.trans (by norm_num)⟩
    · rw [abs_le]
      norm_num at e3 ⊢
      constructor <;> linarith
    · rw [abs_of_nonneg (by exact_mod_cast hb)]
      norm_num at e3R ⊢
      linarith
  · rw [if_pos ⟨hi, by rw [hgt, decide_eq_true h]⟩]
    have hR : (3537118876014453 / 1125899906842624 : ℝ) < r := by
      have := (Rat.cast_lt (K := ℝ)).2 h
      push_cast at this
      exact this
    have em : FP.mul binary64 (.fin 2) (.fin (3537118876014453 / 1125899906842624)) =
        .fin (3537118876014453 / 562949953421312) := by decide +kernel
    rw [em]
    have hz : |r - 3537118876014453 / 562949953421312| ≤ 315 / 100 := by
      rw [abs_le]
      norm_num at e4 ⊢
      constructor <;> linarith
    have es : FP.sub binary64 (.fin r) (.fin (3537118876014453 / 562949953421312)) =
        .fin (binary64.round (r - 3537118876014453 / 562949953421312)) :=
      b64_ofRat (hz.trans (by norm_num))
    rw [es]
    have k1 := b64_std (r - 3537118876014453 / 562949953421312)
    generalize binary64.round (r - 3537118876014453 / 562949953421312) = z at *
    have k2 : |z - (r - 3537118876014453 / 562949953421312)| ≤ 1 / 2 ^ 50 := by
      generalize z - (r - 3537118876014453 / 562949953421312) = u at *
      norm_num at hz k1 ⊢
      linarith
    have k3 : |z| ≤ 316 / 100 := by
      have := abs_add_le (z - (r - 3537118876014453 / 562949953421312)) (r - 3537118876014453 / 562949953421312)
      rw [sub_add_cancel] at this
      generalize z - (r - 3537118876014453 / 562949953421312) = u at *
      norm_num at hz k2 ⊢
      linarith
    have k4 := b32_std z
    have k5 : |binary32.round z - z| ≤ 317 / 100 / 2 ^ 24 := by
      generalize binary32.round z - z = u at *
      norm_num at k3 k4 ⊢
      linarith
    have ec : FP.conv binary32 (.fin z) = .fin (binary32.round z) :=
      b32_ofRat (k3.trans (by norm_num))
    rw [ec]
    generalize binary32.round z = c at *
    have k2R : |(z : ℝ) - (r - 3537118876014453 / 562949953421312)| ≤ 1 / 2 ^ 50 := by
      have := (Rat.cast_le (K := ℝ)).2 k2
      push_cast at this
      exact this
    have k5R : |(c : ℝ) - z| ≤ 317 / 100 / 2 ^ 24 := by
      have := (Rat.cast_le (K := ℝ)).2 k5
      push_cast at this
      exact this
    refine ⟨c, b - 2 * Real.pi, rfl, ?_, .inr rfl, ?_, ?_⟩
    · have := abs_add_le (c - z) z
      rw [sub_add_cancel] at this
      generalize c - z = u at *
      norm_num at k3 k5 ⊢
      linarith
    · rw [abs_le]
      norm_num at e3R e4R p1 p2 ⊢
      constructor <;> linarith
    · obtain ⟨j1, j2⟩ := abs_le.1 k2R
      obtain ⟨j3, j4⟩ := abs_le.1 k5R
      rw [abs_le]
      norm_num at e3R e4R p1 p2 j1 j2 j3 j4 ⊢
      constructor <;> linarith

/-- the entry made from the heading after a step, against an exact heading in ±3.14 -/
theorem heading_entry {m : Libm} (hm : AccuratePhase m) {n : ℕ} {row : Fin n → FP} {i : Fin n} (hi : i.1 = 3)
    {yaw : m.Ang} {a w dt : ℚ} {t : ℝ} (ha : m.getAngle yaw = .fin a) (ha7 : |a| ≤ 7)
    (hΘ : |w * dt| ≤ 2 ^ 19) (ht : |t| ≤ 314 / 100) (hk : ∃ k : ℤ, t = a + w * dt + k * (2 * Real.pi))
    (hr : row i = FP.conv binary32
      (m.getAngle (m.addAng yaw (m.ofRad (FP.mul binary64 (.fin w) (.fin dt)))))) :
    ∃ c : ℚ, rotateYawF row i = .fin c ∧ |c| ≤ 4 ∧ |(c : ℝ) - t| ≤ 4 / 2 ^ 22 := by
  obtain ⟨b, h0, h1, h2, h3⟩ := turn_dir hm ha ha7 hΘ
  rw [h0] at hr
  obtain ⟨c, c0, r1, r2, r3, r4, r5⟩ := rotate_entry hi h1 h2 hr
  refine ⟨c, r1, r2, ?_⟩
  have h4 : SameDirection c0 b 0 := by
    rcases r3 with rfl | rfl
    · simp [SameDirection]
    · constructor <;> simp
  have h5 : SameDirection (a + w * dt) t 0 := by
    obtain ⟨k, rfl⟩ := hk
    constructor
    · rw [Real.sin_add_int_mul_two_pi]; simp
    · rw [Real.cos_add_int_mul_two_pi]; simp
  have h6 := near_of_dir r4 ht (ε := 1 / 2 ^ 33) (by norm_num) (((h4.trans h3).trans h5).mono (by norm_num))
  have h7 := abs_sub_le (c : ℝ) c0 t
  norm_num at h6 r5 ⊢
  linarith

end Mot
