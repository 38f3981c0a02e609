import Verif.Proofs.FloatNoise
import Verif.Props.FloatCtra
/-!
# Process noise as it is computed (C90)

In exact arithmetic noise adds n·cos θ·t²/2 and n·sin θ·t²/2 to the position, n·t to the speed,
n'·t²/2 to the heading and n'·t to the yaw rate (n linear, n' angular noise), and n to the
acceleration.
-/

namespace Mot.Props

open Mot Spec

section
variable {m : Libm}

/-- C90: linear noise n moves the computed position by n·cos θ·t²/2 and n·sin θ·t²/2, θ the old
heading, up to 2⁻⁵³ of the coordinate and 9·2⁻⁵³·(|n t²| + 2⁻⁹⁸). -/
theorem C90_noise_position (hm : AccurateTrig m) {n dt a X Y : ℚ} (w : FP) (hn : |n| ≤ 2 ^ 40)
    (hdt : |dt| ≤ 2 ^ 20) (ha : |a| ≤ 7) (hX : |X| ≤ 2 ^ 200) (hY : |Y| ≤ 2 ^ 200) :
    (∀ s : CtrvStateF m, m.getAngle s.yaw = .fin a →
      (s.next (.fin dt)).x = .fin X → (s.next (.fin dt)).y = .fin Y →
      ∃ X' Y' : ℚ, (s.nextNoisy (.fin dt) ⟨.fin n, w⟩).x = .fin X' ∧
        (s.nextNoisy (.fin dt) ⟨.fin n, w⟩).y = .fin Y' ∧
        |(X' : ℝ) - (X + n / 2 * Real.cos a * (dt * dt))| ≤
          |(X : ℝ)| / 2 ^ 53 + 9 / 2 ^ 53 * (|(n * dt * dt : ℝ)| + 1 / 2 ^ 98) ∧
        |(Y' : ℝ) - (Y + n / 2 * Real.sin a * (dt * dt))| ≤
          |(Y : ℝ)| / 2 ^ 53 + 9 / 2 ^ 53 * (|(n * dt * dt : ℝ)| + 1 / 2 ^ 98)) ∧
    (∀ s : CtraStateF m, m.getAngle s.yaw = .fin a →
      (s.next (.fin dt)).x = .fin X → (s.next (.fin dt)).y = .fin Y →
      ∃ X' Y' : ℚ, (s.nextNoisy (.fin dt) ⟨.fin n, w⟩).x = .fin X' ∧
        (s.nextNoisy (.fin dt) ⟨.fin n, w⟩).y = .fin Y' ∧
        |(X' : ℝ) - (X + n / 2 * Real.cos a * (dt * dt))| ≤
          |(X : ℝ)| / 2 ^ 53 + 9 / 2 ^ 53 * (|(n * dt * dt : ℝ)| + 1 / 2 ^ 98) ∧
        |(Y' : ℝ) - (Y + n / 2 * Real.sin a * (dt * dt))| ≤
          |(Y : ℝ)| / 2 ^ 53 + 9 / 2 ^ 53 * (|(n * dt * dt : ℝ)| + 1 / 2 ^ 98)) := by
  obtain ⟨sa, ca, hsa, hca, esa, eca⟩ := hm a (ha.trans (by norm_num))
  obtain ⟨r, er, ar⟩ := noise_fin hn hdt eca (Real.abs_cos_le_one _)
  obtain ⟨q, eq, aq⟩ := noise_fin hn hdt esa (Real.abs_sin_le_one _)
  have h0 := abs_nonneg (n * dt * dt : ℝ)
  have h1 : |(n * dt * dt : ℝ)| ≤ 2 ^ 80 := by
    have : |n * dt * dt| ≤ 2 ^ 80 := by
      rw [abs_mul, abs_mul]
      refine (mul_le_mul (mul_le_mul hn hdt (abs_nonneg _) (by norm_num)) hdt (abs_nonneg _)
        (by norm_num)).trans (by norm_num)
    exact_mod_cast this
  have hlo : (1 : ℝ) / 2 ^ 100 ≤ |(n * dt * dt : ℝ)| + 1 / 2 ^ 98 := by
    generalize |(n * dt * dt : ℝ)| = z at *
    norm_num at h0 ⊢
    linarith
  have hhi : |(n * dt * dt : ℝ)| + 1 / 2 ^ 98 ≤ 2 ^ 81 := by
    generalize |(n * dt * dt : ℝ)| = z at *
    norm_num at h1 ⊢
    linarith
  obtain ⟨X', eX, aX⟩ := add_noise_fin hX hlo hhi (by norm_num) ar
  obtain ⟨Y', eY, aY⟩ := add_noise_fin hY hlo hhi (by norm_num) aq
  rw [show (7 : ℝ) + 2 = 9 by norm_num] at aX aY
  constructor
  · intro s h h1 h2
    refine ⟨X', Y', ?_, ?_, aX, aY⟩
    · rw [← eX, ← er, ← h1, ← hca, ← h]; rfl
    · rw [← eY, ← eq, ← h2, ← hsa, ← h]; rfl
  · intro s h h1 h2
    refine ⟨X', Y', ?_, ?_, aX, aY⟩
    · rw [← eX, ← er, ← h1, ← hca, ← h]; rfl
    · rw [← eY, ← eq, ← h2, ← hsa, ← h]; rfl

/-- C90: linear noise n changes the computed speed by n·t, angular noise n' the yaw rate by n'·t, up
to 2⁻⁵³ of the quantity and 4·2⁻⁵³·(|n t| + 2⁻⁹⁸). -/
theorem C90_noise_rates {n k dt v w : ℚ} (hn : |n| ≤ 2 ^ 40) (hk : |k| ≤ 2 ^ 40)
    (hdt : |dt| ≤ 2 ^ 20) (hv : |v| ≤ 2 ^ 200) (hw : |w| ≤ 2 ^ 200) :
    (∀ s : CtrvStateF m, s.v = .fin v → s.yawRate = .fin w →
      ∃ v' w' : ℚ, (s.nextNoisy (.fin dt) ⟨.fin n, .fin k⟩).v = .fin v' ∧
        (s.nextNoisy (.fin dt) ⟨.fin n, .fin k⟩).yawRate = .fin w' ∧
        |(v' : ℝ) - (v + n * dt)| ≤
          |(v : ℝ)| / 2 ^ 53 + 4 / 2 ^ 53 * (|(n * dt : ℝ)| + 1 / 2 ^ 98) ∧
        |(w' : ℝ) - (w + k * dt)| ≤
          |(w : ℝ)| / 2 ^ 53 + 4 / 2 ^ 53 * (|(k * dt : ℝ)| + 1 / 2 ^ 98)) ∧
    (∀ s : CtraStateF m, (s.next (.fin dt)).v = .fin v → s.yawRate = .fin w →
      ∃ v' w' : ℚ, (s.nextNoisy (.fin dt) ⟨.fin n, .fin k⟩).v = .fin v' ∧
        (s.nextNoisy (.fin dt) ⟨.fin n, .fin k⟩).yawRate = .fin w' ∧
        |(v' : ℝ) - (v + n * dt)| ≤
          |(v : ℝ)| / 2 ^ 53 + 4 / 2 ^ 53 * (|(n * dt : ℝ)| + 1 / 2 ^ 98) ∧
        |(w' : ℝ) - (w + k * dt)| ≤
          |(w : ℝ)| / 2 ^ 53 + 4 / 2 ^ 53 * (|(k * dt : ℝ)| + 1 / 2 ^ 98)) := by
  have key : ∀ {n v : ℚ}, |n| ≤ 2 ^ 40 → |v| ≤ 2 ^ 200 →
      ∃ v' : ℚ, FP.add binary64 (.fin v) (FP.mul binary64 (.fin n) (.fin dt)) = .fin v' ∧
        |(v' : ℝ) - (v + n * dt)| ≤
          |(v : ℝ)| / 2 ^ 53 + 4 / 2 ^ 53 * (|(n * dt : ℝ)| + 1 / 2 ^ 98) := by
    intro n v hn hv
    obtain ⟨r, er, ar⟩ := rate_fin hn hdt
    have h0 := abs_nonneg (n * dt : ℝ)
    have h1 : |(n * dt : ℝ)| ≤ 2 ^ 60 := by
      have : |n * dt| ≤ 2 ^ 60 := by
        rw [abs_mul]
        exact (mul_le_mul hn hdt (abs_nonneg _) (by norm_num)).trans (by norm_num)
      exact_mod_cast this
    have hlo : (1 : ℝ) / 2 ^ 100 ≤ |(n * dt : ℝ)| + 1 / 2 ^ 98 := by
      generalize |(n * dt : ℝ)| = z at *
      norm_num at h0 ⊢
      linarith
    have hhi : |(n * dt : ℝ)| + 1 / 2 ^ 98 ≤ 2 ^ 81 := by
      generalize |(n * dt : ℝ)| = z at *
      norm_num at h1 ⊢
      linarith
    obtain ⟨v', ev, av⟩ := add_noise_fin hv hlo hhi (by norm_num) ar
    refine ⟨v', by rw [er, ev], av.trans ?_⟩
    have : (11 / 10 + 2) / 2 ^ 53 * (|(n * dt : ℝ)| + 1 / 2 ^ 98) ≤
        4 / 2 ^ 53 * (|(n * dt : ℝ)| + 1 / 2 ^ 98) :=
      mul_le_mul_of_nonneg_right (by norm_num) (by positivity)
    linarith
  obtain ⟨v', ev, av⟩ := key hn hv
  obtain ⟨w', ew, aw⟩ := key hk hw
  constructor
  · intro s h1 h2
    refine ⟨v', w', ?_, ?_, av, aw⟩
    · rw [← ev, ← h1]; rfl
    · rw [← ew, ← h2]; rfl
  · intro s h1 h2
    refine ⟨v', w', ?_, ?_, av, aw⟩
    · rw [← ev, ← h1]; rfl
    · rw [← ew, ← h2]; rfl

/-- C90: linear noise n is added to the acceleration, correctly rounded. -/
theorem C90_noise_acceleration (s : CtraStateF m) {n acc : ℚ} (dt w : FP) (hn : |n| ≤ 2 ^ 200)
    (hacc : |acc| ≤ 2 ^ 200) (h : s.a = .fin acc) :
    (s.nextNoisy dt ⟨.fin n, w⟩).a = .fin (binary64.round (acc + n)) := by
  rw [← (Mot.add_fin hacc (hn.trans (by norm_num))).1, ← h]
  rfl

/-- C90: angular noise k turns the computed heading by k·t²/2 on top of the prediction: sine and
cosine agree up to (192 + 2|ωt| + 4|k t²|)·2⁻⁵³ and 2⁻⁹⁰. -/
theorem C90_noise_heading (hm : AccuratePhase m) {a w k dt : ℚ} (n : FP) (ha : |a| ≤ 7)
    (hΘ : |w * dt| ≤ 2 ^ 19) (hk : |k| ≤ 2 ^ 40) (hdt : |dt| ≤ 2 ^ 20)
    (hkd : |k * dt * dt| ≤ 2 ^ 18) :
    (∀ s : CtrvStateF m, m.getAngle s.yaw = .fin a → s.yawRate = .fin w →
      ∃ b : ℚ, m.getAngle (s.nextNoisy (.fin dt) ⟨n, .fin k⟩).yaw = .fin b ∧ |b| ≤ 7 ∧
        |Real.sin b - Real.sin (a + w * dt + k / 2 * (dt * dt))| ≤
          (192 + 2 * |(w * dt : ℝ)| + 4 * |(k * dt * dt : ℝ)|) / 2 ^ 53 + 1 / 2 ^ 90 ∧
        |Real.cos b - Real.cos (a + w * dt + k / 2 * (dt * dt))| ≤
          (192 + 2 * |(w * dt : ℝ)| + 4 * |(k * dt * dt : ℝ)|) / 2 ^ 53 + 1 / 2 ^ 90) ∧
    (∀ s : CtraStateF m, m.getAngle s.yaw = .fin a → s.yawRate = .fin w →
      ∃ b : ℚ, m.getAngle (s.nextNoisy (.fin dt) ⟨n, .fin k⟩).yaw = .fin b ∧ |b| ≤ 7 ∧
        |Real.sin b - Real.sin (a + w * dt + k / 2 * (dt * dt))| ≤
          (192 + 2 * |(w * dt : ℝ)| + 4 * |(k * dt * dt : ℝ)|) / 2 ^ 53 + 1 / 2 ^ 90 ∧
        |Real.cos b - Real.cos (a + w * dt + k / 2 * (dt * dt))| ≤
          (192 + 2 * |(w * dt : ℝ)| + 4 * |(k * dt * dt : ℝ)|) / 2 ^ 53 + 1 / 2 ^ 90) := by
  obtain ⟨d, ed, hd, ad, hdd⟩ := mul_self_fin hdt
  obtain ⟨h, eh, hh, ah⟩ := half_fin hk
  have hd0 : (0 : ℝ) ≤ dt * dt := mul_self_nonneg _
  have hkd' : |(k * dt * dt : ℝ)| ≤ 2 ^ 18 := by exact_mod_cast hkd
  have hk' : |(k : ℝ)| ≤ 2 ^ 40 := by exact_mod_cast hk
  have hd' : |(d : ℝ)| ≤ 2 ^ 41 := by exact_mod_cast hd
  -- the computed turn and the exact one
  have hturn : |(h * d : ℝ) - k / 2 * (dt * dt)| ≤ 3 / 2 ^ 53 * |(k * dt * dt : ℝ)| + 1 / 2 ^ 100 := by
    have h1 := abs_add_le ((h - k / 2) * d : ℝ) (k / 2 * (d - dt * dt))
    rw [show ((h : ℝ) - k / 2) * d + k / 2 * (d - dt * dt) = h * d - k / 2 * (dt * dt) by ring,
      abs_mul _ (d : ℝ), abs_mul (k / 2 : ℝ)] at h1
    have h2 := mul_le_mul_of_nonneg_right ah (abs_nonneg (d : ℝ))
    have h3 := mul_le_mul_of_nonneg_left ad (abs_nonneg (k / 2 : ℝ))
    have h4 := abs_add_le (d - dt * dt : ℝ) (dt * dt)
    rw [sub_add_cancel, abs_of_nonneg hd0] at h4
    have h5 := mul_le_mul_of_nonneg_left (h4.trans (add_le_add ad le_rfl)) (abs_nonneg (k / 2 : ℝ))
    have h6 : |(k / 2 : ℝ)| * (dt * dt) = |(k * dt * dt : ℝ)| / 2 := by
      rw [show (k * dt * dt : ℝ) = k / 2 * (dt * dt) * 2 by ring, abs_mul, abs_two, abs_mul,
        abs_of_nonneg hd0]
      ring
    have h7 : |(k / 2 : ℝ)| ≤ 2 ^ 39 := by
      rw [abs_div, abs_two]
      norm_num at hk' ⊢
      linarith
    rw [add_mul, div_mul_eq_mul_div] at h2
    rw [mul_add, ← mul_div_assoc, h6] at h3
    rw [mul_add, mul_add, ← mul_div_assoc, h6] at h5
    have := abs_nonneg (k * dt * dt : ℝ)
    clear ad ah h4 h6 hkd hd0 hdd
    generalize |(h * d : ℝ) - k / 2 * (dt * dt)| = z1 at *
    generalize |(h : ℝ) - k / 2| * |(d : ℝ)| = z2 at *
    generalize |(k / 2 : ℝ)| * |(d : ℝ) - dt * dt| = z3 at *
    generalize |(k * dt * dt : ℝ)| = z4 at *
    generalize |(k / 2 : ℝ)| * |(d : ℝ)| = z5 at *
    generalize |(k / 2 : ℝ)| = z6 at *
    generalize |(d : ℝ)| = z7 at *
    norm_num at h1 h2 h3 h5 h7 hd' this ⊢
    linarith
  have hhd' : |(h * d : ℝ)| ≤ |(k * dt * dt : ℝ)| + 1 / 2 ^ 99 := by
    have h1 := abs_add_le (h * d - k / 2 * (dt * dt) : ℝ) (k / 2 * (dt * dt))
    rw [sub_add_cancel] at h1
    have h2 : |(k / 2 * (dt * dt) : ℝ)| = |(k * dt * dt : ℝ)| / 2 := by
      rw [show (k * dt * dt : ℝ) = k / 2 * (dt * dt) * 2 by ring, abs_mul _ (2 : ℝ), abs_two]
      ring
    rw [h2] at h1
    have := abs_nonneg (k * dt * dt : ℝ)
    generalize |(k * dt * dt : ℝ)| = z1 at *
    generalize |(h * d : ℝ) - k / 2 * (dt * dt)| = z2 at *
    generalize |(h * d : ℝ)| = z3 at *
    norm_num at h1 hturn this ⊢
    linarith
  have hhd : |h * d| ≤ 2 ^ 19 := by
    have : |(h * d : ℝ)| ≤ 2 ^ 19 := by
      refine hhd'.trans ?_
      norm_num at hkd' ⊢
      linarith
    exact_mod_cast this
  have key : ∀ {yaw : m.Ang} {b : ℚ}, m.getAngle yaw = .fin b → |b| ≤ 7 →
      |Real.sin b - Real.sin (a + w * dt)| ≤ (64 + |(w * dt : ℝ)|) / 2 ^ 53 →
      |Real.cos b - Real.cos (a + w * dt)| ≤ (64 + |(w * dt : ℝ)|) / 2 ^ 53 →
      ∃ c : ℚ, m.getAngle (m.addAng yaw (m.ofRad (FP.mul binary64
        (FP.mul binary64 (.fin (1 / 2)) (.fin k)) (FP.mul binary64 (.fin dt) (.fin dt))))) = .fin c ∧
        |c| ≤ 7 ∧
        |Real.sin c - Real.sin (a + w * dt + k / 2 * (dt * dt))| ≤
          (192 + 2 * |(w * dt : ℝ)| + 4 * |(k * dt * dt : ℝ)|) / 2 ^ 53 + 1 / 2 ^ 90 ∧
        |Real.cos c - Real.cos (a + w * dt + k / 2 * (dt * dt))| ≤
          (192 + 2 * |(w * dt : ℝ)| + 4 * |(k * dt * dt : ℝ)|) / 2 ^ 53 + 1 / 2 ^ 90 := by
    intro yaw b hb hb7 hbs hbc
    obtain ⟨c, hc, hc7, hcs, hcc⟩ := addAng_err hm hb hb7 hhd
    refine ⟨c, by rw [eh, ed, hc], hc7, ?_⟩
    set β : ℝ := a + w * dt with hβ
    set η : ℝ := (64 + |(w * dt : ℝ)|) / 2 ^ 53 with hη
    have hη0 : 0 ≤ η := by positivity
    set δ : ℝ := h * d with hδ
    have t1 : ∀ {p q r t : ℝ}, |p| ≤ 1 → |q| ≤ 1 → |r| ≤ η → |t| ≤ η →
        |r * p + t * q| ≤ 2 * η ∧ |t * p - r * q| ≤ 2 * η := by
      intro p q r t hp hq hr ht
      have k1 : ∀ {u w : ℝ}, |u| ≤ η → |w| ≤ 1 → |u * w| ≤ η := by
        intro u w hu hw
        rw [abs_mul]
        exact (mul_le_mul hu hw (abs_nonneg _) hη0).trans (mul_one _).le
      exact ⟨(abs_add_le _ _).trans (by linarith [k1 hr hp, k1 ht hq]),
        (abs_sub _ _).trans (by linarith [k1 ht hp, k1 hr hq])⟩
    obtain ⟨u1, u2⟩ := t1 (Real.abs_cos_le_one δ) (Real.abs_sin_le_one δ) hbs hbc
    have v1 := Real.abs_sin_sub_sin_le (β + δ) (β + k / 2 * (dt * dt))
    have v2 := Real.abs_cos_sub_cos_le (β + δ) (β + k / 2 * (dt * dt))
    rw [add_sub_add_left_eq_sub] at v1 v2
    have w1 := abs_sub_le (Real.sin c) (Real.sin (b + δ)) (Real.sin (β + k / 2 * (dt * dt)))
    have w2 := abs_sub_le (Real.sin (b + δ)) (Real.sin (β + δ)) (Real.sin (β + k / 2 * (dt * dt)))
    have w3 := abs_sub_le (Real.cos c) (Real.cos (b + δ)) (Real.cos (β + k / 2 * (dt * dt)))
    have w4 := abs_sub_le (Real.cos (b + δ)) (Real.cos (β + δ)) (Real.cos (β + k / 2 * (dt * dt)))
    have u3 : |Real.sin (b + δ) - Real.sin (β + δ)| ≤ 2 * η := by
      rw [Real.sin_add, Real.sin_add]
      rwa [show Real.sin b * Real.cos δ + Real.cos b * Real.sin δ - (Real.sin β * Real.cos δ +
        Real.cos β * Real.sin δ) = (Real.sin b - Real.sin β) * Real.cos δ +
        (Real.cos b - Real.cos β) * Real.sin δ by ring]
    have u4 : |Real.cos (b + δ) - Real.cos (β + δ)| ≤ 2 * η := by
      rw [Real.cos_add, Real.cos_add]
      rwa [show Real.cos b * Real.cos δ - Real.sin b * Real.sin δ - (Real.cos β * Real.cos δ -
        Real.sin β * Real.sin δ) = (Real.cos b - Real.cos β) * Real.cos δ -
        (Real.sin b - Real.sin β) * Real.sin δ by ring]
    have e : 2 * η = (128 + 2 * |(w * dt : ℝ)|) / 2 ^ 53 := by rw [hη]; ring
    rw [e] at u3 u4
    have f1 : |Real.sin c - Real.sin (β + k / 2 * (dt * dt))| ≤ (64 + |δ|) / 2 ^ 53 +
        (128 + 2 * |(w * dt : ℝ)|) / 2 ^ 53 + |δ - k / 2 * (dt * dt)| := by linarith
    have f2 : |Real.cos c - Real.cos (β + k / 2 * (dt * dt))| ≤ (64 + |δ|) / 2 ^ 53 +
        (128 + 2 * |(w * dt : ℝ)|) / 2 ^ 53 + |δ - k / 2 * (dt * dt)| := by linarith
    have f3 : (64 + |δ|) / 2 ^ 53 + (128 + 2 * |(w * dt : ℝ)|) / 2 ^ 53 + |δ - k / 2 * (dt * dt)| ≤
        (192 + 2 * |(w * dt : ℝ)| + 4 * |(k * dt * dt : ℝ)|) / 2 ^ 53 + 1 / 2 ^ 90 := by
      generalize |δ - k / 2 * (dt * dt)| = z1 at *
      generalize |δ| = z2 at *
      generalize |(w * dt : ℝ)| = z3 at *
      generalize |(k * dt * dt : ℝ)| = z4 at *
      norm_num at hturn hhd' ⊢
      linarith
    exact ⟨f1.trans f3, f2.trans f3⟩
  constructor
  · intro s h1 h2
    obtain ⟨b, hb, hb7, hbs, hbc⟩ := (C90_heading hm ha hΘ).1 s h1 h2
    exact key hb hb7 hbs hbc
  · intro s h1 h2
    obtain ⟨b, hb, hb7, hbs, hbc⟩ := (C90_heading hm ha hΘ).2 s h1 h2
    exact key hb hb7 hbs hbc

end

/-- the hypotheses are met: heading π/4, noise 2 m/s² and 1 rad/s², one second -/
example : ∃ (m : Libm) (s : CtrvStateF m) (v' b : ℚ),
    (s.nextNoisy (.fin 1) ⟨.fin 2, .fin 1⟩).v = .fin v' ∧ |(v' : ℝ) - (10 + 2 * 1)| ≤ 1 / 2 ^ 48 ∧
    m.getAngle (s.nextNoisy (.fin 1) ⟨.fin 2, .fin 1⟩).yaw = .fin b ∧
    |Real.sin b - Real.sin ((piD / 4 : ℚ) + (1 / 2 : ℚ) * (1 : ℚ) + (1 : ℚ) / 2 * ((1 : ℚ) * (1 : ℚ)))|
      ≤ 1 / 2 ^ 40 := by
  obtain ⟨m, yaw, h1, h2, h3, -, -, -⟩ := exists_libm
  let s : CtrvStateF m := ⟨.fin 3, .fin 4, .fin 10, yaw, .fin (1 / 2)⟩
  obtain ⟨v', w', hv, -, av, -⟩ := (C90_noise_rates (m := m) (n := 2) (k := 1) (dt := 1) (v := 10)
    (w := 1 / 2) (by norm_num) (by norm_num) (by norm_num) (by norm_num) (by norm_num)).1 s rfl rfl
  have hpi : |piD / 4| ≤ 7 := by unfold piD; rw [abs_of_pos (by norm_num)]; norm_num
  obtain ⟨b, hb, -, as, -⟩ := (C90_noise_heading h2 (a := piD / 4) (w := 1 / 2) (k := 1) (dt := 1)
    (.fin 2) hpi (by norm_num) (by norm_num) (by norm_num) (by norm_num)).1 s h3 rfl
  refine ⟨m, s, v', b, hv, ?_, hb, ?_⟩
  · push_cast at av
    refine av.trans ?_
    norm_num
  · refine as.trans ?_
    norm_num

end Mot.Props
