import Verif.Props.FloatCtra
import Verif.Spec.FloatPredict
/-!
# What process noise adds to a prediction, as it is computed (C132)

`t` is the computed prediction without noise, whose accuracy is the subject of C89 and C90.
-/

namespace Mot.Props

open Mot Spec

/-- the computed halves and squares -/
private theorem half_square {L dt : ℚ} (hL : |L| ≤ 2 ^ 99) (hdt : |dt| ≤ 2 ^ 49) :
    ∃ h d : ℚ, FP.mul binary64 (.fin (1 / 2)) (.fin L) = .fin h ∧ FP.mul binary64 (.fin dt) (.fin dt) = .fin d ∧
      |h| ≤ 2 ^ 100 ∧ |d| ≤ 2 ^ 100 ∧
      |(h * d : ℝ) - L / 2 * dt ^ 2| ≤ 5 / 4 * |(L * dt ^ 2 : ℝ)| / 2 ^ 53 + 1 / 2 ^ 99 := by
  have b1 : |1 / 2 * L| ≤ 2 ^ 98 := by
    rw [abs_mul]; norm_num at *; linarith
  have b2 : |dt * dt| ≤ 2 ^ 98 := by
    rw [abs_mul]
    exact (mul_le_mul hdt hdt (abs_nonneg _) (by norm_num)).trans (by norm_num)
  have e1 : FP.mul binary64 (.fin (1 / 2)) (.fin L) = .fin (binary64.round (1 / 2 * L)) :=
    b64_ofRat (b1.trans (by norm_num))
  have e2 : FP.mul binary64 (.fin dt) (.fin dt) = .fin (binary64.round (dt * dt)) :=
    b64_ofRat (b2.trans (by norm_num))
  refine ⟨_, _, e1, e2, (abs_b64_le b1 (by norm_num)).trans (by norm_num),
    (abs_b64_le b2 (by norm_num)).trans (by norm_num), ?_⟩
  have c1 := b64_cast (1 / 2 * L)
  have c2 := b64_cast (dt * dt)
  push_cast at c1 c2
  have hL' : |(L : ℝ)| ≤ 2 ^ 99 := by exact_mod_cast hL
  have hdt' : |(dt : ℝ)| ≤ 2 ^ 49 := by exact_mod_cast hdt
  generalize ((binary64.round (1 / 2 * L) : ℚ) : ℝ) = h at *
  generalize ((binary64.round (dt * dt) : ℚ) : ℝ) = d at *
  have hl : |(1 / 2 * L : ℝ)| = |(L : ℝ)| / 2 := by rw [abs_mul]; norm_num; ring
  have hs : |(dt * dt : ℝ)| = (dt : ℝ) ^ 2 := by rw [← sq, abs_of_nonneg (sq_nonneg _)]
  have hs' : (dt : ℝ) ^ 2 ≤ 2 ^ 98 := by
    rw [← sq_abs]
    exact (pow_le_pow_left₀ (abs_nonneg _) hdt' 2).trans (by norm_num)
  have hk : |(L * dt ^ 2 : ℝ)| = |(L : ℝ)| * (dt : ℝ) ^ 2 := by rw [abs_mul, abs_of_nonneg (sq_nonneg (dt : ℝ))]
  rw [hl] at c1
  rw [hs, ← sq] at c2
  rw [hk]
  have e : h * d - L / 2 * dt ^ 2 = (h - 1 / 2 * L) * (d - dt ^ 2) + (h - 1 / 2 * L) * dt ^ 2 +
      1 / 2 * L * (d - dt ^ 2) := by ring
  have h0 : 0 ≤ (dt : ℝ) ^ 2 := sq_nonneg _
  have hL0 := abs_nonneg (L : ℝ)
  rw [e]
  refine (abs_add_le _ _).trans (le_trans (add_le_add (abs_add_le _ _) le_rfl) ?_)
  rw [abs_mul, abs_mul, abs_mul (1 / 2 * (L : ℝ)), hl, abs_of_nonneg h0]
  generalize |(L : ℝ)| = l at *
  generalize (dt : ℝ) ^ 2 = s at *
  have m1 := mul_le_mul c1 c2 (abs_nonneg _) (by positivity)
  have m2 := mul_le_mul_of_nonneg_right c1 h0
  have m3 := mul_le_mul_of_nonneg_left c2 (show 0 ≤ l / 2 by positivity)
  have hls : 0 ≤ l * s := mul_nonneg hL0 h0
  norm_num at *
  nlinarith

/-- the computed term of the position -/
private theorem noise_term {L dt c : ℚ} {C : ℝ} (hL : |L| ≤ 2 ^ 99) (hdt : |dt| ≤ 2 ^ 49) (hC : |C| ≤ 1)
    (hc : |(c : ℝ) - C| ≤ 1 / 2 ^ 52) :
    ∃ r : ℚ, FP.mul binary64 (FP.mul binary64 (FP.mul binary64 (.fin (1 / 2)) (.fin L)) (.fin c))
        (FP.mul binary64 (.fin dt) (.fin dt)) = .fin r ∧
      |(r : ℝ) - L / 2 * C * dt ^ 2| ≤ 4 * |(L * dt ^ 2 : ℝ)| / 2 ^ 53 + 1 / 2 ^ 96 ∧
      |(r : ℝ)| ≤ 2 * |(L * dt ^ 2 : ℝ)| + 1 / 2 ^ 96 := by
  obtain ⟨h, d, e1, e2, h1, h2, h3⟩ := half_square hL hdt
  obtain ⟨r, hr, r1, r2⟩ := straight_fin h1 h2 hC hc
  rw [← e1, ← e2] at hr
  refine ⟨r, hr, ?_⟩
  have k1 := abs_add_le ((h * d : ℝ) - L / 2 * dt ^ 2) ((L : ℝ) / 2 * dt ^ 2)
  rw [sub_add_cancel, show ((L : ℝ) / 2 * dt ^ 2) = L * dt ^ 2 / 2 by ring, abs_div, abs_two] at k1
  have k2 := abs_add_le ((r : ℝ) - h * C * d) (C * (h * d - L / 2 * dt ^ 2))
  rw [show (r : ℝ) - h * C * d + C * (h * d - L / 2 * dt ^ 2) = r - L / 2 * C * dt ^ 2 by ring, abs_mul C] at k2
  have k3 := mul_le_mul hC h3 (abs_nonneg _) zero_le_one
  rw [show ((L : ℝ) / 2 * dt ^ 2) = L * dt ^ 2 / 2 by ring] at *
  have h0 := abs_nonneg (L * dt ^ 2 : ℝ)
  generalize |(L * dt ^ 2 : ℝ)| = K at *
  generalize |(h * d : ℝ)| = D at *
  generalize |C| * _ = E at *
  norm_num at *
  constructor <;> linarith

private theorem noise_position {X L dt c : ℚ} {C : ℝ} (hX : |X| ≤ 2 ^ 200) (hL : |L| ≤ 2 ^ 99) (hdt : |dt| ≤ 2 ^ 49)
    (hC : |C| ≤ 1) (hc : |(c : ℝ) - C| ≤ 1 / 2 ^ 52) :
    ∃ X' : ℚ, FP.add binary64 (.fin X) (FP.mul binary64 (FP.mul binary64 (FP.mul binary64 (.fin (1 / 2)) (.fin L))
        (.fin c)) (FP.mul binary64 (.fin dt) (.fin dt))) = .fin X' ∧
      |(X' : ℝ) - (X + L / 2 * C * dt ^ 2)| ≤
        |(X : ℝ)| / 2 ^ 53 + 6 * |(L * dt ^ 2 : ℝ)| / 2 ^ 53 + 1 / 2 ^ 95 := by
  obtain ⟨r, hr, r1, r2⟩ := noise_term hL hdt hC hc
  have hb : |(L * dt ^ 2 : ℝ)| ≤ 2 ^ 200 := by
    have hL' : |(L : ℝ)| ≤ 2 ^ 99 := by exact_mod_cast hL
    have hdt' : |(dt : ℝ)| ≤ 2 ^ 49 := by exact_mod_cast hdt
    rw [abs_mul, abs_pow]
    exact (mul_le_mul hL' (pow_le_pow_left₀ (abs_nonneg _) hdt' 2) (by positivity) (by norm_num)).trans (by norm_num)
  have big : |r| ≤ 2 ^ 210 := by
    have : |(r : ℝ)| ≤ 2 ^ 210 := by
      norm_num at *
      linarith
    exact_mod_cast this
  rw [hr, (add_fin hX big).1]
  refine ⟨_, rfl, ?_⟩
  have h := sum_err (x := X) (X := (binary64.round (X + r) : ℚ)) (by simpa using b64_cast (X + r)) r1 r2
  refine h.trans ?_
  have := abs_nonneg (L * dt ^ 2 : ℝ)
  norm_num
  linarith

private theorem noise_rate {V L dt : ℚ} (hV : |V| ≤ 2 ^ 200) (hL : |L| ≤ 2 ^ 99) (hdt : |dt| ≤ 2 ^ 49) :
    ∃ V' : ℚ, FP.add binary64 (.fin V) (FP.mul binary64 (.fin L) (.fin dt)) = .fin V' ∧
      |(V' : ℝ) - (V + L * dt)| ≤ |(V : ℝ)| / 2 ^ 53 + 3 * |(L * dt : ℝ)| / 2 ^ 53 + 1 / 2 ^ 198 := by
  have hb : |L * dt| ≤ 2 ^ 148 := by
    rw [abs_mul]
    exact (mul_le_mul hL hdt (abs_nonneg _) (by norm_num)).trans (by norm_num)
  have e1 : FP.mul binary64 (.fin L) (.fin dt) = .fin (binary64.round (L * dt)) := b64_ofRat (hb.trans (by norm_num))
  rw [e1, (add_fin hV ((abs_b64_le hb (by norm_num)).trans (by norm_num))).1]
  refine ⟨_, rfl, ?_⟩
  have c1 := b64_cast (L * dt)
  have c2 := b64_cast (V + binary64.round (L * dt))
  push_cast at c1 c2
  generalize ((binary64.round (L * dt) : ℚ) : ℝ) = l at *
  have h := sum_err (x := V) (B := 2 * |(L * dt : ℝ)|) (ε' := 1 / 2 ^ 200) c2 c1 (by
    have := abs_add_le (l - L * dt) (L * dt)
    rw [sub_add_cancel] at this
    have h0 := abs_nonneg (L * dt : ℝ)
    norm_num at *
    linarith)
  refine h.trans ?_
  have := abs_nonneg (L * dt : ℝ)
  norm_num
  linarith

section
variable {m : Libm} {L A dt X Y V W a b : ℚ}

private theorem noise_heading (hp : AccuratePhase m) {yaw : m.Ang} (hb : m.getAngle yaw = .fin b) (hb7 : |b| ≤ 7)
    (hA : |A| ≤ 2 ^ 99) (hdt : |dt| ≤ 2 ^ 49) (hΘ : |A * dt ^ 2| ≤ 2 ^ 19) :
    ∃ B : ℚ, m.getAngle (m.addAng yaw (m.ofRad (FP.mul binary64 (FP.mul binary64 (.fin (1 / 2)) (.fin A))
        (FP.mul binary64 (.fin dt) (.fin dt))))) = .fin B ∧ |B| ≤ 7 ∧
      SameDirection B (b + A / 2 * dt ^ 2) ((65 + 2 * |(A * dt ^ 2 : ℝ)|) / 2 ^ 53) := by
  obtain ⟨h, d, e1, e2, h1, h2, h3⟩ := half_square hA hdt
  have hΘ' : |(A * dt ^ 2 : ℝ)| ≤ 2 ^ 19 := by exact_mod_cast hΘ
  have k1 := abs_add_le ((h * d : ℝ) - A / 2 * dt ^ 2) ((A : ℝ) / 2 * dt ^ 2)
  rw [sub_add_cancel, show ((A : ℝ) / 2 * dt ^ 2) = A * dt ^ 2 / 2 by ring, abs_div, abs_two] at k1
  have hhd : |(h * d : ℝ)| ≤ |(A * dt ^ 2 : ℝ)| / 2 + 5 / 4 * |(A * dt ^ 2 : ℝ)| / 2 ^ 53 + 1 / 2 ^ 99 := by
    rw [show ((A : ℝ) / 2 * dt ^ 2) = A * dt ^ 2 / 2 by ring] at h3
    linarith
  have hhd' : |h * d| ≤ 2 ^ 19 := by
    have : |(h * d : ℝ)| ≤ 2 ^ 19 := by
      norm_num at *
      linarith
    exact_mod_cast this
  obtain ⟨B, hB, hB7, s1, s2⟩ := addAng_err hp hb hb7 hhd'
  rw [e1, e2]
  refine ⟨B, hB, hB7, ?_, ?_⟩
  · have t1 := abs_add_le (Real.sin B - Real.sin (b + h * d)) (Real.sin (b + h * d) - Real.sin (b + A / 2 * dt ^ 2))
    have t2 := Real.abs_sin_sub_sin_le (b + h * d : ℝ) (b + A / 2 * dt ^ 2)
    rw [add_sub_add_left_eq_sub] at t2
    rw [sub_add_sub_cancel] at t1
    have h0 := abs_nonneg (A * dt ^ 2 : ℝ)
    norm_num at *
    linarith
  · have t1 := abs_add_le (Real.cos B - Real.cos (b + h * d)) (Real.cos (b + h * d) - Real.cos (b + A / 2 * dt ^ 2))
    have t2 := Real.abs_cos_sub_cos_le (b + h * d : ℝ) (b + A / 2 * dt ^ 2)
    rw [add_sub_add_left_eq_sub] at t2
    rw [sub_add_sub_cancel] at t1
    have h0 := abs_nonneg (A * dt ^ 2 : ℝ)
    norm_num at *
    linarith

/-- C132 for CTRV objects: noise moves the position by half the acceleration times the square of the time step in
the direction of the old heading, changes speed and turn rate by acceleration times time step and the heading by half
the angular acceleration times the square of the time step, up to the stated errors. -/
theorem C132_ctrv (ht : AccurateTrig m) (hp : AccuratePhase m) {s t : CtrvStateF m} (hst : t = s.next (.fin dt))
    (ha : m.getAngle s.yaw = .fin a) (ha7 : |a| ≤ 7) (hb : m.getAngle t.yaw = .fin b) (hb7 : |b| ≤ 7)
    (hx : t.x = .fin X) (hy : t.y = .fin Y) (hv : t.v = .fin V) (hw : t.yawRate = .fin W)
    (bx : |X| ≤ 2 ^ 200) (byy : |Y| ≤ 2 ^ 200) (bv : |V| ≤ 2 ^ 200) (bw : |W| ≤ 2 ^ 200)
    (hL : |L| ≤ 2 ^ 99) (hA : |A| ≤ 2 ^ 99) (hdt : |dt| ≤ 2 ^ 49) (hΘ : |A * dt ^ 2| ≤ 2 ^ 19)
    {t' : CtrvStateF m} (ht' : t' = s.nextNoisy (.fin dt) ⟨.fin L, .fin A⟩) :
    ∃ X' Y' V' W' B : ℚ, t'.x = .fin X' ∧ t'.y = .fin Y' ∧ t'.v = .fin V' ∧ t'.yawRate = .fin W' ∧
      m.getAngle t'.yaw = .fin B ∧
      |(X' : ℝ) - (X + L / 2 * Real.cos a * dt ^ 2)| ≤
        |(X : ℝ)| / 2 ^ 53 + 6 * |(L * dt ^ 2 : ℝ)| / 2 ^ 53 + 1 / 2 ^ 95 ∧
      |(Y' : ℝ) - (Y + L / 2 * Real.sin a * dt ^ 2)| ≤
        |(Y : ℝ)| / 2 ^ 53 + 6 * |(L * dt ^ 2 : ℝ)| / 2 ^ 53 + 1 / 2 ^ 95 ∧
      |(V' : ℝ) - (V + L * dt)| ≤ |(V : ℝ)| / 2 ^ 53 + 3 * |(L * dt : ℝ)| / 2 ^ 53 + 1 / 2 ^ 198 ∧
      |(W' : ℝ) - (W + A * dt)| ≤ |(W : ℝ)| / 2 ^ 53 + 3 * |(A * dt : ℝ)| / 2 ^ 53 + 1 / 2 ^ 198 ∧
      SameDirection B (b + A / 2 * dt ^ 2) ((65 + 2 * |(A * dt ^ 2 : ℝ)|) / 2 ^ 53) := by
  subst hst ht'
  obtain ⟨p, c, hs, hc, hs', hc'⟩ := ht a (ha7.trans (by norm_num))
  obtain ⟨X', eX, aX⟩ := noise_position bx hL hdt (Real.abs_cos_le_one a) hc'
  obtain ⟨Y', eY, aY⟩ := noise_position byy hL hdt (Real.abs_sin_le_one a) hs'
  obtain ⟨V', eV, aV⟩ := noise_rate bv hL hdt
  obtain ⟨W', eW, aW⟩ := noise_rate bw hA hdt
  obtain ⟨B, eB, -, aB⟩ := noise_heading hp hb hb7 hA hdt hΘ
  refine ⟨X', Y', V', W', B, ?_, ?_, ?_, ?_, eB, aX, aY, aV, aW, aB⟩
  · rw [← eX, ← hx, ← hc, ← ha]; rfl
  · rw [← eY, ← hy, ← hs, ← ha]; rfl
  · rw [← eV, ← hv]; rfl
  · rw [← eW, ← hw]; rfl

/-- C132 for CTRA objects: the same, and the acceleration changes by the noise. -/
theorem C132_ctra (ht : AccurateTrig m) (hp : AccuratePhase m) {s t : CtraStateF m} (hst : t = s.next (.fin dt))
    (ha : m.getAngle s.yaw = .fin a) (ha7 : |a| ≤ 7) (hb : m.getAngle t.yaw = .fin b) (hb7 : |b| ≤ 7) {C : ℚ}
    (hx : t.x = .fin X) (hy : t.y = .fin Y) (hv : t.v = .fin V) (hw : t.yawRate = .fin W) (hacc : t.a = .fin C)
    (bx : |X| ≤ 2 ^ 200) (byy : |Y| ≤ 2 ^ 200) (bv : |V| ≤ 2 ^ 200) (bw : |W| ≤ 2 ^ 200) (bc : |C| ≤ 2 ^ 200)
    (hL : |L| ≤ 2 ^ 99) (hA : |A| ≤ 2 ^ 99) (hdt : |dt| ≤ 2 ^ 49) (hΘ : |A * dt ^ 2| ≤ 2 ^ 19)
    {t' : CtraStateF m} (ht' : t' = s.nextNoisy (.fin dt) ⟨.fin L, .fin A⟩) :
    ∃ X' Y' V' W' C' B : ℚ, t'.x = .fin X' ∧ t'.y = .fin Y' ∧ t'.v = .fin V' ∧ t'.yawRate = .fin W' ∧
      t'.a = .fin C' ∧ m.getAngle t'.yaw = .fin B ∧
      |(X' : ℝ) - (X + L / 2 * Real.cos a * dt ^ 2)| ≤
        |(X : ℝ)| / 2 ^ 53 + 6 * |(L * dt ^ 2 : ℝ)| / 2 ^ 53 + 1 / 2 ^ 95 ∧
      |(Y' : ℝ) - (Y + L / 2 * Real.sin a * dt ^ 2)| ≤
        |(Y : ℝ)| / 2 ^ 53 + 6 * |(L * dt ^ 2 : ℝ)| / 2 ^ 53 + 1 / 2 ^ 95 ∧
      |(V' : ℝ) - (V + L * dt)| ≤ |(V : ℝ)| / 2 ^ 53 + 3 * |(L * dt : ℝ)| / 2 ^ 53 + 1 / 2 ^ 198 ∧
      |(W' : ℝ) - (W + A * dt)| ≤ |(W : ℝ)| / 2 ^ 53 + 3 * |(A * dt : ℝ)| / 2 ^ 53 + 1 / 2 ^ 198 ∧
      |(C' : ℝ) - (C + L)| ≤ |(C + L : ℝ)| / 2 ^ 53 + 1 / 2 ^ 200 ∧
      SameDirection B (b + A / 2 * dt ^ 2) ((65 + 2 * |(A * dt ^ 2 : ℝ)|) / 2 ^ 53) := by
  subst hst ht'
  obtain ⟨p, c, hs, hc, hs', hc'⟩ := ht a (ha7.trans (by norm_num))
  obtain ⟨X', eX, aX⟩ := noise_position bx hL hdt (Real.abs_cos_le_one a) hc'
  obtain ⟨Y', eY, aY⟩ := noise_position byy hL hdt (Real.abs_sin_le_one a) hs'
  obtain ⟨V', eV, aV⟩ := noise_rate bv hL hdt
  obtain ⟨W', eW, aW⟩ := noise_rate bw hA hdt
  obtain ⟨B, eB, -, aB⟩ := noise_heading hp hb hb7 hA hdt hΘ
  have eC := (add_fin bc (hL.trans (by norm_num))).1
  have aC := b64_cast (C + L)
  push_cast at aC
  refine ⟨X', Y', V', W', _, B, ?_, ?_, ?_, ?_, ?_, eB, aX, aY, aV, aW, aC, aB⟩
  · rw [← eX, ← hx, ← hc, ← ha]; rfl
  · rw [← eY, ← hy, ← hs, ← ha]; rfl
  · rw [← eV, ← hv]; rfl
  · rw [← eW, ← hw]; rfl
  · rw [← eC, ← hacc]; rfl

/-- C132 against the exact motion model: noise adds the stated error to that of the prediction without noise. -/
theorem C132_exact_ctrv (ht : AccurateTrig m) {s : CtrvStateF m} {σ : CtrvState} (ha : m.getAngle s.yaw = .fin a)
    (ha7 : |a| ≤ 7) (hσ : σ.yaw.getAngle = a) {E : ℝ} (hx : (s.next (.fin dt)).x = .fin X)
    (hy : (s.next (.fin dt)).y = .fin Y) (bx : |X| ≤ 2 ^ 200) (byy : |Y| ≤ 2 ^ 200)
    (hX : |(X : ℝ) - (σ.next dt).x| ≤ E) (hY : |(Y : ℝ) - (σ.next dt).y| ≤ E)
    (hL : |L| ≤ 2 ^ 99) (hdt : |dt| ≤ 2 ^ 49) :
    ∃ X' Y' : ℚ, (s.nextNoisy (.fin dt) ⟨.fin L, .fin A⟩).x = .fin X' ∧
      (s.nextNoisy (.fin dt) ⟨.fin L, .fin A⟩).y = .fin Y' ∧
      |(X' : ℝ) - (σ.nextNoisy dt ⟨L, A⟩).x| ≤ E + |(X : ℝ)| / 2 ^ 53 + 6 * |(L * dt ^ 2 : ℝ)| / 2 ^ 53 + 1 / 2 ^ 95 ∧
      |(Y' : ℝ) - (σ.nextNoisy dt ⟨L, A⟩).y| ≤ E + |(Y : ℝ)| / 2 ^ 53 + 6 * |(L * dt ^ 2 : ℝ)| / 2 ^ 53 + 1 / 2 ^ 95 := by
  obtain ⟨p, c, hs, hc, hs', hc'⟩ := ht a (ha7.trans (by norm_num))
  obtain ⟨X', eX, aX⟩ := noise_position bx hL hdt (Real.abs_cos_le_one a) hc'
  obtain ⟨Y', eY, aY⟩ := noise_position byy hL hdt (Real.abs_sin_le_one a) hs'
  refine ⟨X', Y', ?_, ?_, ?_, ?_⟩
  · rw [← eX, ← hx, ← hc, ← ha]; rfl
  · rw [← eY, ← hy, ← hs, ← ha]; rfl
  · have e : (σ.nextNoisy dt ⟨L, A⟩).x = (σ.next dt).x + L / 2 * Real.cos a * dt ^ 2 := by
      simp only [CtrvState.nextNoisy, hσ]; ring
    have h1 := abs_add_le ((X' : ℝ) - (X + L / 2 * Real.cos a * dt ^ 2)) (X - (σ.next dt).x)
    rw [show (X' : ℝ) - (X + L / 2 * Real.cos a * dt ^ 2) + (X - (σ.next dt).x) =
      X' - (σ.nextNoisy dt ⟨L, A⟩).x by rw [e]; ring] at h1
    linarith
  · have e : (σ.nextNoisy dt ⟨L, A⟩).y = (σ.next dt).y + L / 2 * Real.sin a * dt ^ 2 := by
      simp only [CtrvState.nextNoisy, hσ]; ring
    have h1 := abs_add_le ((Y' : ℝ) - (Y + L / 2 * Real.sin a * dt ^ 2)) (Y - (σ.next dt).y)
    rw [show (Y' : ℝ) - (Y + L / 2 * Real.sin a * dt ^ 2) + (Y - (σ.next dt).y) =
      Y' - (σ.nextNoisy dt ⟨L, A⟩).y by rw [e]; ring] at h1
    linarith

/-- C132 against the exact motion model, for CTRA objects. -/
theorem C132_exact_ctra (ht : AccurateTrig m) {s : CtraStateF m} {σ : CtraState} (ha : m.getAngle s.yaw = .fin a)
    (ha7 : |a| ≤ 7) (hσ : σ.yaw.getAngle = a) {E : ℝ} (hx : (s.next (.fin dt)).x = .fin X)
    (hy : (s.next (.fin dt)).y = .fin Y) (bx : |X| ≤ 2 ^ 200) (byy : |Y| ≤ 2 ^ 200)
    (hX : |(X : ℝ) - (σ.next dt).x| ≤ E) (hY : |(Y : ℝ) - (σ.next dt).y| ≤ E)
    (hL : |L| ≤ 2 ^ 99) (hdt : |dt| ≤ 2 ^ 49) :
    ∃ X' Y' : ℚ, (s.nextNoisy (.fin dt) ⟨.fin L, .fin A⟩).x = .fin X' ∧
      (s.nextNoisy (.fin dt) ⟨.fin L, .fin A⟩).y = .fin Y' ∧
      |(X' : ℝ) - (σ.nextNoisy dt ⟨L, A⟩).x| ≤ E + |(X : ℝ)| / 2 ^ 53 + 6 * |(L * dt ^ 2 : ℝ)| / 2 ^ 53 + 1 / 2 ^ 95 ∧
      |(Y' : ℝ) - (σ.nextNoisy dt ⟨L, A⟩).y| ≤ E + |(Y : ℝ)| / 2 ^ 53 + 6 * |(L * dt ^ 2 : ℝ)| / 2 ^ 53 + 1 / 2 ^ 95 := by
  obtain ⟨p, c, hs, hc, hs', hc'⟩ := ht a (ha7.trans (by norm_num))
  obtain ⟨X', eX, aX⟩ := noise_position bx hL hdt (Real.abs_cos_le_one a) hc'
  obtain ⟨Y', eY, aY⟩ := noise_position byy hL hdt (Real.abs_sin_le_one a) hs'
  refine ⟨X', Y', ?_, ?_, ?_, ?_⟩
  · rw [← eX, ← hx, ← hc, ← ha]; rfl
  · rw [← eY, ← hy, ← hs, ← ha]; rfl
  · have e : (σ.nextNoisy dt ⟨L, A⟩).x = (σ.next dt).x + L / 2 * Real.cos a * dt ^ 2 := by
      simp only [CtraState.nextNoisy, hσ]; ring
    have h1 := abs_add_le ((X' : ℝ) - (X + L / 2 * Real.cos a * dt ^ 2)) (X - (σ.next dt).x)
    rw [show (X' : ℝ) - (X + L / 2 * Real.cos a * dt ^ 2) + (X - (σ.next dt).x) =
      X' - (σ.nextNoisy dt ⟨L, A⟩).x by rw [e]; ring] at h1
    linarith
  · have e : (σ.nextNoisy dt ⟨L, A⟩).y = (σ.next dt).y + L / 2 * Real.sin a * dt ^ 2 := by
      simp only [CtraState.nextNoisy, hσ]; ring
    have h1 := abs_add_le ((Y' : ℝ) - (Y + L / 2 * Real.sin a * dt ^ 2)) (Y - (σ.next dt).y)
    rw [show (Y' : ℝ) - (Y + L / 2 * Real.sin a * dt ^ 2) + (Y - (σ.next dt).y) =
      Y' - (σ.nextNoisy dt ⟨L, A⟩).y by rw [e]; ring] at h1
    linarith

/-- C132: noise that is tiny compared to a coordinate leaves it exactly as it was. -/
theorem C132_absorbed (ht : AccurateTrig m) (hL : |L| ≤ 2 ^ 99) (hdt : |dt| ≤ 2 ^ 49)
    (dX : IsDouble X) (hX : 1 / 2 ^ 30 ≤ |X|) (hsmall : |L * dt ^ 2| ≤ |X| / 2 ^ 58) (A : FP) :
    (∀ s : CtrvStateF m, m.getAngle s.yaw = .fin a → |a| ≤ 7 →
      ((s.next (.fin dt)).x = .fin X → (s.nextNoisy (.fin dt) ⟨.fin L, A⟩).x = .fin X) ∧
      ((s.next (.fin dt)).y = .fin X → (s.nextNoisy (.fin dt) ⟨.fin L, A⟩).y = .fin X)) ∧
    (∀ s : CtraStateF m, m.getAngle s.yaw = .fin a → |a| ≤ 7 →
      ((s.next (.fin dt)).x = .fin X → (s.nextNoisy (.fin dt) ⟨.fin L, A⟩).x = .fin X) ∧
      ((s.next (.fin dt)).y = .fin X → (s.nextNoisy (.fin dt) ⟨.fin L, A⟩).y = .fin X)) := by
  have key : ∀ {c : ℚ} {C : ℝ}, |C| ≤ 1 → |(c : ℝ) - C| ≤ 1 / 2 ^ 52 →
      FP.add binary64 (.fin X) (FP.mul binary64 (FP.mul binary64 (FP.mul binary64 (.fin (1 / 2)) (.fin L)) (.fin c))
        (FP.mul binary64 (.fin dt) (.fin dt))) = .fin X := by
    intro c C hC hc
    obtain ⟨r, hr, -, r2⟩ := noise_term hL hdt hC hc
    rw [hr]
    refine dX.absorb ?_
    have h1 : |(L * dt ^ 2 : ℝ)| ≤ |(X : ℝ)| / 2 ^ 58 := by
      have := (Rat.cast_le (K := ℝ)).2 hsmall
      push_cast at this
      exact this
    have h2 : 1 / 2 ^ 30 ≤ |(X : ℝ)| := by
      have := (Rat.cast_le (K := ℝ)).2 hX
      push_cast at this
      exact this
    have h3 : |(r : ℝ)| < |(X : ℝ)| / 2 ^ 56 := by
      norm_num at *
      linarith
    have : ((|r| : ℚ) : ℝ) < ((|X| / 2 ^ 56 : ℚ) : ℝ) := by push_cast; exact h3
    exact Rat.cast_lt.1 this
  constructor
  all_goals
    intro s ha ha7
    obtain ⟨p, c, hs, hc, hs', hc'⟩ := ht a (ha7.trans (by norm_num))
    refine ⟨fun h => ?_, fun h => ?_⟩
    · refine Eq.trans ?_ (key (Real.abs_cos_le_one a) hc')
      rw [← h, ← hc, ← ha]; rfl
    · refine Eq.trans ?_ (key (Real.abs_sin_le_one a) hs')
      rw [← h, ← hs, ← ha]; rfl

/-- C132: noise with a NaN or an infinity in the linear acceleration leaves neither coordinate nor the speed finite,
one in the angular acceleration leaves the turn rate not finite, whatever state and time step. -/
theorem C132_not_finite (n : ProcessNoiseF) (dt : FP) :
    ((∀ q, n.lin ≠ .fin q) → (∀ s : CtrvStateF m, ∀ q, (s.nextNoisy dt n).x ≠ .fin q ∧ (s.nextNoisy dt n).y ≠ .fin q ∧
        (s.nextNoisy dt n).v ≠ .fin q) ∧
      ∀ s : CtraStateF m, ∀ q, (s.nextNoisy dt n).x ≠ .fin q ∧ (s.nextNoisy dt n).y ≠ .fin q ∧
        (s.nextNoisy dt n).v ≠ .fin q ∧ (s.nextNoisy dt n).a ≠ .fin q) ∧
    ((∀ q, n.ang ≠ .fin q) → (∀ s : CtrvStateF m, ∀ q, (s.nextNoisy dt n).yawRate ≠ .fin q) ∧
      ∀ s : CtraStateF m, ∀ q, (s.nextNoisy dt n).yawRate ≠ .fin q) := by
  have pos : ∀ {x c d : FP} {l : FP} {q : ℚ}, FP.add binary64 x (FP.mul binary64 (FP.mul binary64
      (FP.mul binary64 (.fin (1 / 2)) l) c) d) = .fin q → ∃ p, l = .fin p := by
    intro x c d l q h
    obtain ⟨-, p, h⟩ := fin_of_add h
    obtain ⟨⟨p, h⟩, -⟩ := fin_of_mul h
    obtain ⟨⟨p, h⟩, -⟩ := fin_of_mul h
    exact (fin_of_mul h).2
  have rate : ∀ {x d l : FP} {q : ℚ}, FP.add binary64 x (FP.mul binary64 l d) = .fin q → ∃ p, l = .fin p := by
    intro x d l q h
    obtain ⟨-, p, h⟩ := fin_of_add h
    exact (fin_of_mul h).1
  have no : ∀ {l : FP}, (∀ q, l ≠ .fin q) → ¬ ∃ p, l = .fin p := fun h ⟨p, hp⟩ => h p hp
  refine ⟨fun h => ⟨fun s q => ⟨fun e => no h (pos e), fun e => no h (pos e), fun e => no h (rate e)⟩,
    fun s q => ⟨fun e => no h (pos e), fun e => no h (pos e), fun e => no h (rate e), fun e => no h (fin_of_add e).2⟩⟩,
    fun h => ⟨fun s q e => no h (rate e), fun s q e => no h (rate e)⟩⟩

end

/-- the hypotheses are met: 10 m/s, straight on, one second, noise of 2 m/s² and 1 rad/s² -/
example : ∃ (m : Libm) (s : CtrvStateF m) (X' V' W' : ℚ), AccurateTrig m ∧ AccuratePhase m ∧
    (s.nextNoisy (.fin 1) ⟨.fin 2, .fin 1⟩).x = .fin X' ∧
    (s.nextNoisy (.fin 1) ⟨.fin 2, .fin 1⟩).v = .fin V' ∧ |(V' : ℝ) - 12| ≤ 1 / 2 ^ 40 ∧
    (s.nextNoisy (.fin 1) ⟨.fin 2, .fin 1⟩).yawRate = .fin W' ∧ |(W' : ℝ) - 1| ≤ 1 / 2 ^ 40 := by
  obtain ⟨m, yaw, h1, h2, h3, -, -, -⟩ := exists_libm
  have hpi : (0 : ℚ) < piD := by unfold piD; norm_num
  have hpi4 : |piD / 4| ≤ 7 := by rw [abs_of_pos (by positivity)]; unfold piD; norm_num
  have hs : CtrvFields (m := m) ⟨.fin 3, .fin 4, .fin 10, yaw, .fin 0⟩ 3 4 10 0 (piD / 4) :=
    ⟨rfl, rfl, rfl, rfl, h3, isDouble_zero⟩
  obtain ⟨X, Y, hX, hY, eX, eY⟩ := C89_accuracy_straight _ h1 hs (by positivity)
    (by have := piD_bounds.1; have := Real.pi_pos; push_cast; linarith) (by norm_num) (by norm_num)
    (by rw [abs_zero]; positivity) (by norm_num) 1 (by norm_num)
  obtain ⟨b, hb, hb7, -⟩ := addAng_err h2 (w := 0) (dt := 1) h3 hpi4 (by norm_num)
  obtain ⟨hx, hy⟩ := CtrvState.next_straight
    (s := ⟨(3 : ℚ), (4 : ℚ), (10 : ℚ), Angle.ofRad (piD / 4 : ℚ), (0 : ℚ)⟩)
    ((unitsEq_rat 0).2 (by rw [abs_zero]; positivity)) ((1 : ℚ) : ℝ)
  rw [hx] at eX
  rw [hy] at eY
  have bound : ∀ {Z : ℚ} {z c r : ℝ}, |(Z : ℝ) - (z + 10 * c * 1)| ≤ r → |z| ≤ 4 → |c| ≤ 1 → r ≤ 100 →
      |Z| ≤ 2 ^ 200 := by
    intro Z z c r h h' hc h''
    have k1 := abs_add_le ((Z : ℝ) - (z + 10 * c * 1)) (z + 10 * c * 1)
    have k2 := abs_add_le z (10 * c * 1)
    have k3 : |10 * c * 1| ≤ 10 := by
      rw [mul_one, abs_mul, abs_of_pos (by norm_num : (0 : ℝ) < 10)]; linarith
    rw [sub_add_cancel] at k1
    have : |(Z : ℝ)| ≤ 2 ^ 200 := by
      linarith [show (200 : ℝ) ≤ 2 ^ 200 by norm_num]
    exact_mod_cast this
  obtain ⟨X', Y', V', W', B, hX', -, hV', hW', -, -, -, eV, eW, -⟩ := C132_ctrv h1 h2
    (s := ⟨.fin 3, .fin 4, .fin 10, yaw, .fin 0⟩) (dt := 1) rfl h3 hpi4 hb hb7 hX hY rfl rfl
    (bound (c := Real.cos (Angle.ofRad (piD / 4 : ℚ)).getAngle) (by simpa using eX) (by norm_num)
      (Real.abs_cos_le_one _) (by norm_num))
    (bound (c := Real.sin (Angle.ofRad (piD / 4 : ℚ)).getAngle) (by simpa using eY) (by norm_num)
      (Real.abs_sin_le_one _) (by norm_num))
    (V := 10) (W := 0) (by norm_num) (by norm_num) (L := 2) (A := 1) (by norm_num) (by norm_num) (by norm_num)
    (by norm_num) rfl
  refine ⟨m, _, X', V', W', h1, h2, hX', hV', ?_, hW', ?_⟩
  · norm_num at eV ⊢
    linarith
  · norm_num at eW ⊢
    linarith

end Mot.Props
