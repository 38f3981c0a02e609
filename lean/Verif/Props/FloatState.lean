import Verif.Proofs.FloatState
import Verif.Props.FloatCtra
/-!
# Arithmetic of angles and states as computed (C111)

In `double` arithmetic, for any mathematical library; statements about headings assume that angles
are read accurately (`AccuratePhase`).
-/

namespace Mot.Props

open Mot Spec

variable {m : Libm}

/-- what the two state types have in common; `idx` is the place of a number in the vector -/
private structure Arith {S : Type} {n k : ℕ} [MotionModelF S n] (num : S → Fin k → FP) (yaw : S → m.Ang)
    (idx : Fin k → Fin n) : Prop where
  add_num : ∀ s t i, num (MotionModelF.add s t) i = FP.add binary64 (num s i) (num t i)
  sub_num : ∀ s t i, num (MotionModelF.sub s t) i = FP.sub binary64 (num s i) (num t i)
  add_yaw : ∀ s t, yaw (MotionModelF.add s t) = m.addAng (yaw s) (yaw t)
  sub_yaw : ∀ s t, yaw (MotionModelF.sub s t) = m.subAng (yaw s) (yaw t)
  ofVec_num : ∀ w i, num (MotionModelF.ofVec w) i = (w (idx i)).conv binary64
  toVec_num : ∀ s i, MotionModelF.toVec s (idx i) = (num s i).conv binary32
  ext : ∀ s t, num s = num t → yaw s = yaw t → s = t

private theorem arithCtrv : Arith (m := m) (S := CtrvStateF m) ctrvNumber (·.yaw) (Fin.succAbove 3) where
  add_num s t i := by fin_cases i <;> rfl
  sub_num s t i := by fin_cases i <;> rfl
  add_yaw s t := rfl
  sub_yaw s t := rfl
  ofVec_num w i := by fin_cases i <;> rfl
  toVec_num w i := by fin_cases i <;> rfl
  ext s t h h' := by
    cases s; cases t
    have h0 := congrFun h 0
    have h1 := congrFun h 1
    have h2 := congrFun h 2
    have h3 := congrFun h 3
    simp only [ctrvNumber] at h0 h1 h2 h3 h'
    simp_all

private theorem arithCtra : Arith (m := m) (S := CtraStateF m) ctraNumber (·.yaw) (Fin.succAbove 3) where
  add_num s t i := by fin_cases i <;> rfl
  sub_num s t i := by fin_cases i <;> rfl
  add_yaw s t := rfl
  sub_yaw s t := rfl
  ofVec_num w i := by fin_cases i <;> rfl
  toVec_num w i := by fin_cases i <;> rfl
  ext s t h h' := by
    cases s; cases t
    have h0 := congrFun h 0
    have h1 := congrFun h 1
    have h2 := congrFun h 2
    have h3 := congrFun h 3
    have h4 := congrFun h 4
    simp only [ctraNumber] at h0 h1 h2 h3 h4 h'
    simp_all

/-! ### Numbers -/

/-- C111: every number of a sum or difference of states or of process noises is the sum or difference
of the two numbers up to one rounding, whatever the other numbers are; NaN and infinities spread within
that number only. -/
theorem C111_sum :
    (∀ (s t : CtrvStateF m) i, IsSum (ctrvNumber s i) (ctrvNumber t i) (ctrvNumber (MotionModelF.add s t) i) ∧
      IsDifference (ctrvNumber s i) (ctrvNumber t i) (ctrvNumber (MotionModelF.sub s t) i)) ∧
    (∀ (s t : CtraStateF m) i, IsSum (ctraNumber s i) (ctraNumber t i) (ctraNumber (MotionModelF.add s t) i) ∧
      IsDifference (ctraNumber s i) (ctraNumber t i) (ctraNumber (MotionModelF.sub s t) i)) ∧
    (∀ (n k : ProcessNoiseF) i, IsSum (noiseNumber n i) (noiseNumber k i) (noiseNumber (n.add k) i) ∧
      IsDifference (noiseNumber n i) (noiseNumber k i) (noiseNumber (n.sub k) i)) := by
  refine ⟨fun s t i => ?_, fun s t i => ?_, fun n k i => ?_⟩
  · rw [arithCtrv.add_num, arithCtrv.sub_num]
    exact ⟨isSum_add _ _, isDifference_sub _ _⟩
  · rw [arithCtra.add_num, arithCtra.sub_num]
    exact ⟨isSum_add _ _, isDifference_sub _ _⟩
  · fin_cases i <;> exact ⟨isSum_add _ _, isDifference_sub _ _⟩

/-- C111: the order of the operands of a sum does not matter. -/
theorem C111_comm :
    (∀ s t : CtrvStateF m, MotionModelF.add s t = MotionModelF.add t s) ∧
    (∀ s t : CtraStateF m, MotionModelF.add s t = MotionModelF.add t s) ∧
    ∀ n k : ProcessNoiseF, n.add k = k.add n := by
  have ha : ∀ a b : m.Ang, m.addAng a b = m.addAng b a := fun a b => by
    unfold Libm.addAng; rw [FP.add_comm']
  refine ⟨fun s t => arithCtrv.ext _ _ ?_ ?_, fun s t => arithCtra.ext _ _ ?_ ?_, fun n k => ?_⟩
  · funext i; rw [arithCtrv.add_num, arithCtrv.add_num, FP.add_comm']
  · exact ha _ _
  · funext i; rw [arithCtra.add_num, arithCtra.add_num, FP.add_comm']
  · exact ha _ _
  · unfold ProcessNoiseF.add; rw [FP.add_comm' _ n.lin, FP.add_comm' _ n.ang]

/-- C111: the difference of a state and itself is zero in every number that is finite, and its heading
is made from 0. -/
theorem C111_self :
    (∀ (s : CtrvStateF m), (∀ i x, ctrvNumber s i = .fin x → ctrvNumber (MotionModelF.sub s s) i = .fin 0) ∧
      ∀ a, m.getAngle s.yaw = .fin a → (MotionModelF.sub s s).yaw = m.ofRad (.fin 0)) ∧
    ∀ (s : CtraStateF m), (∀ i x, ctraNumber s i = .fin x → ctraNumber (MotionModelF.sub s s) i = .fin 0) ∧
      ∀ a, m.getAngle s.yaw = .fin a → (MotionModelF.sub s s).yaw = m.ofRad (.fin 0) := by
  have ha : ∀ (b : m.Ang) a, m.getAngle b = .fin a → m.subAng b b = m.ofRad (.fin 0) := fun b a h => by
    unfold Libm.subAng; rw [h, sub_self_double]
  refine ⟨fun s => ⟨fun i x h => ?_, fun a h => ha _ _ h⟩, fun s => ⟨fun i x h => ?_, fun a h => ha _ _ h⟩⟩
  · rw [arithCtrv.sub_num, h, sub_self_double]
  · rw [arithCtra.sub_num, h, sub_self_double]

private theorem undo {a b : FP} {x y q : ℚ} (ha : a = .fin x) (hb : b = .fin y) (hx : IsDouble x) (hy : IsDouble y)
    (h : FP.sub binary64 (FP.add binary64 a b) b = .fin q) :
    |q - x| ≤ (2 * |x + y| + |x|) / 2 ^ 53 ∧ (IsDouble (x + y) → q = x) := by
  rcases (isSum_add a b).1 x y ha hb hx hy with ⟨hr, -⟩ | ⟨⟨r, hr, hrd, he, hex⟩, -⟩
  · rw [hr, hb] at h; cases h
  rcases (isDifference_sub (FP.add binary64 a b) b).1 r y hr hb hrd hy with ⟨hq, -⟩ | ⟨⟨q', hq, -, he', hex'⟩, -⟩
  · rw [hq] at h; cases h
  rw [h] at hq
  cases hq
  constructor
  · have t1 := abs_add_le (q - (r - y)) (r - (x + y))
    have t2 := abs_add_le (r - (x + y)) x
    rw [show q - (r - y) + (r - (x + y)) = q - x by ring] at t1
    rw [show r - (x + y) + x = r - y by ring] at t2
    have : |r - y| / 2 ^ 53 ≤ (|x + y| / 2 ^ 53 + |x|) / 2 ^ 53 := by
      apply div_le_div_of_nonneg_right _ (by positivity)
      linarith
    have h0 := abs_nonneg (x + y)
    have h1 : |x + y| / 2 ^ 53 / 2 ^ 53 ≤ |x + y| / 2 ^ 53 := div_le_self (by positivity) (by norm_num)
    rw [add_div] at this
    have : (2 * |x + y| + |x|) / 2 ^ 53 = |x + y| / 2 ^ 53 + |x + y| / 2 ^ 53 + |x| / 2 ^ 53 := by ring
    linarith
  · intro hd
    have e := hex hd
    subst e
    rw [show x + y - y = x by ring] at hex'
    exact hex' hx

/-- C111: adding a state and subtracting it again restores every number up to the stated error, and
exactly if the sum of the two numbers is a `double`. -/
theorem C111_undo :
    (∀ (s t : CtrvStateF m) i x y q, ctrvNumber s i = .fin x → ctrvNumber t i = .fin y → IsDouble x → IsDouble y →
      ctrvNumber (MotionModelF.sub (MotionModelF.add s t) t) i = .fin q →
      |q - x| ≤ (2 * |x + y| + |x|) / 2 ^ 53 ∧ (IsDouble (x + y) → q = x)) ∧
    ∀ (s t : CtraStateF m) i x y q, ctraNumber s i = .fin x → ctraNumber t i = .fin y → IsDouble x → IsDouble y →
      ctraNumber (MotionModelF.sub (MotionModelF.add s t) t) i = .fin q →
      |q - x| ≤ (2 * |x + y| + |x|) / 2 ^ 53 ∧ (IsDouble (x + y) → q = x) := by
  refine ⟨fun s t i x y q h1 h2 h3 h4 h5 => ?_, fun s t i x y q h1 h2 h3 h4 h5 => ?_⟩
  · rw [arithCtrv.sub_num, arithCtrv.add_num] at h5
    exact undo h1 h2 h3 h4 h5
  · rw [arithCtra.sub_num, arithCtra.add_num] at h5
    exact undo h1 h2 h3 h4 h5

/-- C111: adding and subtracting need not restore a number: 1 + 2⁵³ − 2⁵³ is 0. -/
theorem C111_not_undone (s t : CtrvStateF m) (hs : s.x = .fin 1) (ht : t.x = .fin (2 ^ 53)) :
    (MotionModelF.sub (MotionModelF.add s t) t).x = .fin 0 := by
  show FP.sub binary64 (FP.add binary64 s.x t.x) t.x = _
  rw [hs, ht]
  decide +kernel

/-! ### Headings -/

private theorem sum_heading (hm : AccuratePhase m) {l r : m.Ang} {a b : ℚ} (ha : m.getAngle l = .fin a)
    (hb : m.getAngle r = .fin b) (ha7 : |a| ≤ 7) (hb7 : |b| ≤ 7) :
    (∃ c : ℚ, m.getAngle (m.addAng l r) = .fin c ∧ 0 ≤ c ∧ (c : ℝ) < 2 * Real.pi ∧ NearMod2Pi c (a + b) (63 / 2 ^ 53)) ∧
    ∃ c : ℚ, m.getAngle (m.subAng l r) = .fin c ∧ 0 ≤ c ∧ (c : ℝ) < 2 * Real.pi ∧ NearMod2Pi c (a - b) (63 / 2 ^ 53) := by
  constructor
  · obtain ⟨c, h0, h1, h2, h3⟩ := getAngle_ofRad_near hm (y := a + b) ((abs_add_le _ _).trans (by linarith))
    refine ⟨c, ?_, h1, h2, by rw [Rat.cast_add] at h3; exact h3⟩
    unfold Libm.addAng
    rw [ha, hb]
    exact h0
  · obtain ⟨c, h0, h1, h2, h3⟩ := getAngle_ofRad_near hm (y := a - b) ((abs_sub _ _).trans (by linarith))
    refine ⟨c, ?_, h1, h2, by rw [Rat.cast_sub] at h3; exact h3⟩
    unfold Libm.subAng
    rw [ha, hb]
    exact h0

/-- C111: the heading of a sum or difference of states is read as a number in [0, 2π) that is the sum or
difference of the headings modulo full turns, up to 63 · 2⁻⁵³; adding and subtracting restores the
heading up to 126 · 2⁻⁵³ and full turns. -/
theorem C111_heading (hm : AccuratePhase m) {l r : m.Ang} {a b : ℚ} (ha : m.getAngle l = .fin a)
    (hb : m.getAngle r = .fin b) (ha7 : |a| ≤ 7) (hb7 : |b| ≤ 7) :
    (∀ s t : CtrvStateF m, s.yaw = l → t.yaw = r →
      (∃ c : ℚ, m.getAngle (MotionModelF.add s t).yaw = .fin c ∧ 0 ≤ c ∧ (c : ℝ) < 2 * Real.pi ∧
        NearMod2Pi c (a + b) (63 / 2 ^ 53)) ∧
      (∃ c : ℚ, m.getAngle (MotionModelF.sub s t).yaw = .fin c ∧ 0 ≤ c ∧ (c : ℝ) < 2 * Real.pi ∧
        NearMod2Pi c (a - b) (63 / 2 ^ 53)) ∧
      ∃ c : ℚ, m.getAngle (MotionModelF.sub (MotionModelF.add s t) t).yaw = .fin c ∧ 0 ≤ c ∧ (c : ℝ) < 2 * Real.pi ∧
        NearMod2Pi c a (126 / 2 ^ 53)) ∧
    ∀ s t : CtraStateF m, s.yaw = l → t.yaw = r →
      (∃ c : ℚ, m.getAngle (MotionModelF.add s t).yaw = .fin c ∧ 0 ≤ c ∧ (c : ℝ) < 2 * Real.pi ∧
        NearMod2Pi c (a + b) (63 / 2 ^ 53)) ∧
      (∃ c : ℚ, m.getAngle (MotionModelF.sub s t).yaw = .fin c ∧ 0 ≤ c ∧ (c : ℝ) < 2 * Real.pi ∧
        NearMod2Pi c (a - b) (63 / 2 ^ 53)) ∧
      ∃ c : ℚ, m.getAngle (MotionModelF.sub (MotionModelF.add s t) t).yaw = .fin c ∧ 0 ≤ c ∧ (c : ℝ) < 2 * Real.pi ∧
        NearMod2Pi c a (126 / 2 ^ 53) := by
  have key : (∃ c : ℚ, m.getAngle (m.addAng l r) = .fin c ∧ 0 ≤ c ∧ (c : ℝ) < 2 * Real.pi ∧
        NearMod2Pi c (a + b) (63 / 2 ^ 53)) ∧
      (∃ c : ℚ, m.getAngle (m.subAng l r) = .fin c ∧ 0 ≤ c ∧ (c : ℝ) < 2 * Real.pi ∧
        NearMod2Pi c (a - b) (63 / 2 ^ 53)) ∧
      ∃ c : ℚ, m.getAngle (m.subAng (m.addAng l r) r) = .fin c ∧ 0 ≤ c ∧ (c : ℝ) < 2 * Real.pi ∧
        NearMod2Pi c a (126 / 2 ^ 53) := by
    obtain ⟨h1, h2⟩ := sum_heading hm ha hb ha7 hb7
    refine ⟨h1, h2, ?_⟩
    obtain ⟨g, g0, g1, g2, g3⟩ := h1
    have hg7 : |g| ≤ 7 := by
      rw [abs_of_nonneg g1]
      have := Real.pi_lt_d2
      have : (g : ℝ) ≤ 7 := by linarith
      exact_mod_cast this
    obtain ⟨c, c0, c1, c2, c3⟩ := (sum_heading hm g0 hb hg7 hb7).2
    refine ⟨c, c0, c1, c2, ?_⟩
    obtain ⟨i, hi⟩ := g3
    obtain ⟨j, hj⟩ := c3
    refine ⟨i + j, ?_⟩
    have := abs_add_le ((c : ℝ) - (g - b) - j * (2 * Real.pi)) (g - (a + b) - i * (2 * Real.pi))
    rw [show (c : ℝ) - (g - b) - j * (2 * Real.pi) + (g - (a + b) - i * (2 * Real.pi)) =
      c - a - ((i + j : ℤ) : ℝ) * (2 * Real.pi) by push_cast; ring] at this
    norm_num at *
    linarith
  refine ⟨?_, ?_⟩
  · rintro s t rfl rfl
    exact key
  · rintro s t rfl rfl
    exact key

/-! ### Scaling -/

/-- C111: multiplying a CTRV state by a `float` multiplies every number up to one rounding, and the
heading that is read, in [0, 2π), up to the stated error and full turns. -/
theorem C111_scale (s : CtrvStateF m) {k : ℚ} (hk : IsFloat k) :
    (∀ i x, ctrvNumber s i = .fin x → |x * k| ≤ 2 ^ 250 → ∃ q, ctrvNumber (s.mul (.fin k)) i = .fin q ∧
      |q - x * k| ≤ |x * k| / 2 ^ 53 + 1 / 2 ^ 200 ∧ (IsDouble (x * k) → q = x * k)) ∧
    (∀ i, ctrvNumber s i = .nan → ctrvNumber (s.mul (.fin k)) i = .nan) ∧
    ∀ a : ℚ, AccuratePhase m → m.getAngle s.yaw = .fin a → |k * a| ≤ 2 ^ 20 →
      ∃ c : ℚ, m.getAngle (s.mul (.fin k)).yaw = .fin c ∧ 0 ≤ c ∧ (c : ℝ) < 2 * Real.pi ∧
        NearMod2Pi c (k * a) ((49 + |(k * a : ℝ)|) / 2 ^ 53) := by
  have hc : FP.conv binary64 (.fin k) = .fin k := by
    show FP.ofRat binary64 k = _
    unfold FP.ofRat
    rw [hk.round64, if_pos]
    obtain ⟨_, _, -, -, h⟩ := hk
    exact h.trans (by rw [b64_emax]; exact_mod_cast (pow_lt_pow_right₀ (by norm_num : (1 : ℚ) < 2) (by norm_num : 128 < 1024)))
  have hn : ∀ i, ctrvNumber (s.mul (.fin k)) i = FP.mul binary64 (ctrvNumber s i) (.fin k) := by
    intro i
    unfold CtrvStateF.mul
    rw [hc]
    fin_cases i <;> rfl
  refine ⟨fun i x hx hb => ?_, fun i h => by rw [hn, h]; rfl, fun a hm ha hb => ?_⟩
  · rw [hn, hx]
    refine ⟨_, b64_ofRat hb, b64_std _, fun h => h.round⟩
  · have e : (s.mul (.fin k)).yaw = m.ofRad (FP.ofRat binary64 (k * a)) := by
      unfold CtrvStateF.mul
      rw [hc]
      show m.mulAng s.yaw (.fin k) = _
      unfold Libm.mulAng
      rw [ha]
      rfl
    rw [e, b64_ofRat (hb.trans (by norm_num))]
    obtain ⟨b, h0, h1, h2, h3⟩ := getAngle_ofRad_dir hm (q := binary64.round (k * a))
      ((abs_b64_le hb (by norm_num)).trans (by norm_num))
    refine ⟨b, h0, h1, h2, ?_⟩
    have h4 := ((NearMod2Pi.of_dir h3).trans (NearMod2Pi.of_near (b64_cast (k * a))))
    rw [Rat.cast_mul] at h4
    refine h4.mono ?_
    have : (1 : ℝ) / 2 ^ 200 ≤ 1 / 2 ^ 53 := by norm_num
    norm_num
    linarith

/-- C111: scaling and dividing an angle: the heading read afterwards is the product or quotient modulo
full turns; a quotient by zero, or one that is too large, is handed to sine and cosine as NaN or
infinity, one by an infinity as 0. -/
theorem C111_angle (l : m.Ang) {a : ℚ} (ha : m.getAngle l = .fin a) (r : ℚ) :
    (AccuratePhase m → |r * a| ≤ 2 ^ 20 → ∃ c : ℚ, m.getAngle (m.mulAng l (.fin r)) = .fin c ∧ 0 ≤ c ∧
      (c : ℝ) < 2 * Real.pi ∧ NearMod2Pi c (r * a) ((49 + |(r * a : ℝ)|) / 2 ^ 53)) ∧
    (AccuratePhase m → r ≠ 0 → |a / r| ≤ 2 ^ 20 → ∃ c : ℚ, m.getAngle (m.divAng l (.fin r)) = .fin c ∧ 0 ≤ c ∧
      (c : ℝ) < 2 * Real.pi ∧ NearMod2Pi c (a / r) ((49 + |(a / r : ℝ)|) / 2 ^ 53)) ∧
    (a = 0 → m.divAng l (.fin 0) = m.ofRad .nan) ∧ (0 < a → m.divAng l (.fin 0) = m.ofRad (.inf false)) ∧
    ((2 : ℚ) ^ (1024 : ℤ) ≤ |a / r| → r ≠ 0 → m.divAng l (.fin r) = m.ofRad (.inf (decide (a / r < 0)))) ∧
    ∀ b, m.divAng l (.inf b) = m.ofRad (.fin 0) := by
  have key : ∀ y : ℚ, AccuratePhase m → |y| ≤ 2 ^ 20 → ∃ c : ℚ, m.getAngle (m.ofRad (FP.ofRat binary64 y)) = .fin c ∧
      0 ≤ c ∧ (c : ℝ) < 2 * Real.pi ∧ NearMod2Pi c y ((49 + |(y : ℝ)|) / 2 ^ 53) := by
    intro y hm hb
    rw [b64_ofRat (hb.trans (by norm_num))]
    obtain ⟨b, h0, h1, h2, h3⟩ := getAngle_ofRad_dir hm (q := binary64.round y)
      ((abs_b64_le hb (by norm_num)).trans (by norm_num))
    refine ⟨b, h0, h1, h2, ((NearMod2Pi.of_dir h3).trans (NearMod2Pi.of_near (b64_cast y))).mono ?_⟩
    have : (1 : ℝ) / 2 ^ 200 ≤ 1 / 2 ^ 53 := by norm_num
    norm_num
    linarith
  refine ⟨fun hm hb => ?_, fun hm hr hb => ?_, ?_, fun h => ?_, fun h hr => ?_, fun b => ?_⟩
  · have := key (r * a) hm hb
    rw [Rat.cast_mul] at this
    unfold Libm.mulAng
    rw [ha]
    exact this
  · have := key (a / r) hm hb
    rw [Rat.cast_div] at this
    unfold Libm.divAng
    rw [ha]
    simp only [FP.div, if_neg hr]
    exact this
  · rintro rfl
    unfold Libm.divAng
    rw [ha]
    rfl
  · unfold Libm.divAng
    rw [ha]
    simp only [FP.div, if_true, if_neg h.ne', decide_eq_false h.not_gt]
  · unfold Libm.divAng
    rw [ha]
    simp only [FP.div, if_neg hr]
    unfold FP.ofRat
    rw [if_neg]
    rw [b64_emax, binary64.abs_round, b64_overflow, not_lt]
    refine le_trans ?_ h
    rw [show (1024 : ℤ) = 54 + 970 by norm_num, zpow_add₀ (by norm_num)]
    exact mul_le_mul_of_nonneg_right (by norm_num) (by positivity)
  · unfold Libm.divAng
    rw [ha]
    rfl

/-! ### Vectors -/

/-- the numbers that a `float` can hold, infinities and NaN -/
private theorem conv_float {w : FP} (h : ∀ x, w = .fin x → IsFloat x) :
    FP.conv binary64 w = w ∧ FP.conv binary32 w = w := by
  cases w with
  | nan => exact ⟨rfl, rfl⟩
  | inf s => exact ⟨rfl, rfl⟩
  | fin x =>
    have hx := h x rfl
    have hb : |x| < 2 ^ 128 := by obtain ⟨_, _, -, -, h⟩ := hx; exact h
    constructor
    · show FP.ofRat binary64 x = _
      unfold FP.ofRat
      rw [hx.round64, if_pos]
      exact hb.trans (by rw [b64_emax]; exact_mod_cast (pow_lt_pow_right₀ (by norm_num : (1 : ℚ) < 2) (by norm_num : 128 < 1024)))
    · show FP.ofRat binary32 x = _
      unfold FP.ofRat
      rw [hx.round, if_pos]
      exact hb.trans_le (by show (2 : ℚ) ^ 128 ≤ (2 : ℚ) ^ (128 : ℤ); norm_cast)

/-- C111: a state made from a vector of `float`s has exactly its entries as numbers, in the order
x, y, speed, (heading), yaw rate(, acceleration), and the vector made from it has the same numbers;
likewise the noise of an augmented state has the last two entries. -/
theorem C111_vector :
    (∀ w : Fin 5 → FP, (∀ i x, w i = .fin x → IsFloat x) → ∀ i,
      ctrvNumber (MotionModelF.ofVec w : CtrvStateF m) i = w (Fin.succAbove 3 i) ∧
      MotionModelF.toVec (MotionModelF.ofVec w : CtrvStateF m) (Fin.succAbove 3 i) = w (Fin.succAbove 3 i)) ∧
    (∀ w : Fin 6 → FP, (∀ i x, w i = .fin x → IsFloat x) → ∀ i,
      ctraNumber (MotionModelF.ofVec w : CtraStateF m) i = w (Fin.succAbove 3 i) ∧
      MotionModelF.toVec (MotionModelF.ofVec w : CtraStateF m) (Fin.succAbove 3 i) = w (Fin.succAbove 3 i)) ∧
    (∀ w : Fin 7 → FP, (∀ i x, w i = .fin x → IsFloat x) →
      (AugmentedF.ofVec w : AugmentedF (CtrvStateF m)).state = MotionModelF.ofVec (fun i => w (i.castLE (by omega))) ∧
      noiseNumber (AugmentedF.ofVec w : AugmentedF (CtrvStateF m)).noise = ![w 5, w 6]) ∧
    ∀ w : Fin 8 → FP, (∀ i x, w i = .fin x → IsFloat x) →
      (AugmentedF.ofVec w : AugmentedF (CtraStateF m)).state = MotionModelF.ofVec (fun i => w (i.castLE (by omega))) ∧
      noiseNumber (AugmentedF.ofVec w : AugmentedF (CtraStateF m)).noise = ![w 6, w 7] := by
  refine ⟨fun w hw i => ?_, fun w hw i => ?_, fun w hw => ⟨rfl, ?_⟩, fun w hw => ⟨rfl, ?_⟩⟩
  · rw [arithCtrv.toVec_num, arithCtrv.ofVec_num, (conv_float (hw _)).1]
    exact ⟨rfl, (conv_float (hw _)).2⟩
  · rw [arithCtra.toVec_num, arithCtra.ofVec_num, (conv_float (hw _)).1]
    exact ⟨rfl, (conv_float (hw _)).2⟩
  · show ![FP.conv binary64 (w 5), FP.conv binary64 (w 6)] = _
    rw [(conv_float (hw _)).1, (conv_float (hw _)).1]
  · show ![FP.conv binary64 (w 6), FP.conv binary64 (w 7)] = _
    rw [(conv_float (hw _)).1, (conv_float (hw _)).1]

private theorem conv_twice {x : ℚ} (hx : |x| ≤ 2 ^ 127) : ∃ q, FP.conv binary64 (FP.conv binary32 (.fin x)) = .fin q ∧
    IsFloat q ∧ |q - x| ≤ |x| / 2 ^ 24 + 1 / 2 ^ 150 ∧ (q = x ↔ IsFloat x) := by
  have e : FP.conv binary32 (.fin x) = .fin (binary32.round x) := b32_ofRat hx
  have hb : |binary32.round x| < 2 ^ 128 := by
    have h1 := b32_std x
    have h2 := abs_add_le (binary32.round x - x) x
    rw [sub_add_cancel] at h2
    norm_num at *
    linarith
  have hf := isFloat_round hb
  refine ⟨binary32.round x, ?_, hf, b32_std x, fun h => h ▸ hf, fun h => h.round⟩
  rw [e, (conv_float (fun y hy => by cases hy; exact hf)).1]

/-- C111: the vector of a state holds its numbers rounded to `float`; a state made from it has the same
number exactly if that was a `float`. -/
theorem C111_to_vector :
    (∀ (s : CtrvStateF m) i x, ctrvNumber s i = .fin x → |x| ≤ 2 ^ 127 →
      ∃ q, ctrvNumber (MotionModelF.ofVec (MotionModelF.toVec s) : CtrvStateF m) i = .fin q ∧ IsFloat q ∧
        |q - x| ≤ |x| / 2 ^ 24 + 1 / 2 ^ 150 ∧ (q = x ↔ IsFloat x)) ∧
    ∀ (s : CtraStateF m) i x, ctraNumber s i = .fin x → |x| ≤ 2 ^ 127 →
      ∃ q, ctraNumber (MotionModelF.ofVec (MotionModelF.toVec s) : CtraStateF m) i = .fin q ∧ IsFloat q ∧
        |q - x| ≤ |x| / 2 ^ 24 + 1 / 2 ^ 150 ∧ (q = x ↔ IsFloat x) := by
  refine ⟨fun s i x h hx => ?_, fun s i x h hx => ?_⟩
  · rw [arithCtrv.ofVec_num, arithCtrv.toVec_num, h]
    exact conv_twice hx
  · rw [arithCtra.ofVec_num, arithCtra.toVec_num, h]
    exact conv_twice hx

/-! ### Augmented states -/

/-- C111: sums and differences of augmented states are those of the states and of the noises. -/
theorem C111_augmented :
    (∀ a b : AugmentedF (CtrvStateF m), (a.add b).state = MotionModelF.add a.state b.state ∧
      (a.sub b).state = MotionModelF.sub a.state b.state ∧ ∀ i,
      IsSum (noiseNumber a.noise i) (noiseNumber b.noise i) (noiseNumber (a.add b).noise i) ∧
      IsDifference (noiseNumber a.noise i) (noiseNumber b.noise i) (noiseNumber (a.sub b).noise i)) ∧
    ∀ a b : AugmentedF (CtraStateF m), (a.add b).state = MotionModelF.add a.state b.state ∧
      (a.sub b).state = MotionModelF.sub a.state b.state ∧ ∀ i,
      IsSum (noiseNumber a.noise i) (noiseNumber b.noise i) (noiseNumber (a.add b).noise i) ∧
      IsDifference (noiseNumber a.noise i) (noiseNumber b.noise i) (noiseNumber (a.sub b).noise i) :=
  ⟨fun _ _ => ⟨rfl, rfl, (C111_sum (m := m)).2.2 _ _⟩, fun _ _ => ⟨rfl, rfl, (C111_sum (m := m)).2.2 _ _⟩⟩

/-! ### Examples -/

/-- 1/2 + 1/4 is exact and undone exactly; the heading of the sum is a half turn or near it -/
example : ∃ (m : Libm) (s t : CtrvStateF m), (MotionModelF.sub (MotionModelF.add s t) t).x = .fin (1 / 2) ∧
    (MotionModelF.add s t).x = .fin (3 / 4) ∧
    ∃ c : ℚ, m.getAngle (MotionModelF.add s t).yaw = .fin c ∧ NearMod2Pi c (piD / 4 + piD / 4 : ℚ) (63 / 2 ^ 53) := by
  obtain ⟨m, yaw, -, h2, h3, -⟩ := exists_libm
  have hp : |piD / 4| ≤ 7 := by unfold piD; norm_num [abs_of_pos]
  obtain ⟨⟨c, h0, -, -, h⟩, -⟩ := (C111_heading h2 h3 h3 hp hp).1
    ⟨.fin (1 / 2), .fin 0, .fin 0, yaw, .fin 0⟩ ⟨.fin (1 / 4), .fin 0, .fin 0, yaw, .fin 0⟩ rfl rfl
  refine ⟨m, ⟨.fin (1 / 2), .fin 0, .fin 0, yaw, .fin 0⟩, ⟨.fin (1 / 4), .fin 0, .fin 0, yaw, .fin 0⟩, ?_, ?_, c, h0, ?_⟩
  · show FP.sub binary64 (FP.add binary64 (.fin (1 / 2)) (.fin (1 / 4))) (.fin (1 / 4)) = _
    decide +kernel
  · show FP.add binary64 (.fin (1 / 2)) (.fin (1 / 4)) = _
    decide +kernel
  · rw [Rat.cast_add]; exact h

/-- a state scaled by 3 -/
example : ∃ (m : Libm) (s : CtrvStateF m) (c : ℚ), (s.mul (.fin 3)).x = .fin 6 ∧
    m.getAngle (s.mul (.fin 3)).yaw = .fin c ∧ NearMod2Pi c (3 * (piD / 4 : ℚ)) (1 / 2 ^ 47) := by
  obtain ⟨m, yaw, -, h2, h3, -⟩ := exists_libm
  have hf : IsFloat 3 := ⟨3 * 2 ^ 22, -22, ⟨by norm_num [abs_of_pos], by norm_num, .inl (by norm_num [abs_of_pos])⟩,
    by norm_num, by norm_num [abs_of_pos]⟩
  have hp : |3 * (piD / 4)| ≤ 3 := by unfold piD; norm_num [abs_of_pos]
  obtain ⟨-, -, hc⟩ := C111_scale (m := m) ⟨.fin 2, .fin 0, .fin 0, yaw, .fin 0⟩ hf
  obtain ⟨c, h0, -, -, h⟩ := hc _ h2 h3 (hp.trans (by norm_num))
  refine ⟨m, _, c, ?_, h0, ?_⟩
  · show FP.mul binary64 (.fin 2) (FP.conv binary64 (.fin 3)) = _
    decide +kernel
  · refine h.mono ?_
    have : |((3 * (piD / 4) : ℚ) : ℝ)| ≤ 3 := by exact_mod_cast hp
    push_cast at this ⊢
    norm_num at *
    linarith

end Mot.Props
