import Verif.Props.FloatExactCtra
import Verif.Props.FloatCtra
/-!
# Concrete cases of the theorems on the computed prediction (C95)
-/

namespace Mot.Props

open Mot Spec

variable {m : Libm}

/-! ### Examples -/

theorem nearestEven_self {x q : ℚ} (hx : IsDouble x) (h : NearestEven 53 (-1074) x q) : q = x := by
  obtain ⟨m, e, hc, he, -⟩ := hx
  obtain ⟨_, _, -, -, h1⟩ := h
  have := (h1 m e hc).1
  rw [← he, sub_self, abs_zero] at this
  exact sub_eq_zero.1 (abs_nonpos_iff.1 this)

theorem nearestEven_le {x q : ℚ} (h : NearestEven 53 (-1074) x q) : |q| ≤ 2 * |x| := by
  obtain ⟨_, _, -, -, h1⟩ := h
  have := (h1 0 (-1074) ⟨by norm_num, le_rfl, .inr rfl⟩).1
  rw [Int.cast_zero, zero_mul, zero_sub, abs_neg] at this
  have h2 := abs_add_le (q - x) x
  rw [sub_add_cancel] at h2
  linarith

theorem forall₂_choose {α β γ : Type} {p : α → β → Prop} {q : α → γ → Prop} {c : γ → Prop} {l : List α}
    {r : List β} (h : List.Forall₂ p l r) (hc : ∀ a, ∀ b ∈ r, p a b → ∃ x, q a x ∧ c x) :
    ∃ xs, List.Forall₂ q l xs ∧ ∀ x ∈ xs, c x := by
  induction h with
  | nil => exact ⟨[], .nil, by simp⟩
  | cons h1 _ ih =>
    obtain ⟨x, hx, cx⟩ := hc _ _ List.mem_cons_self h1
    obtain ⟨xs, hxs, cxs⟩ := ih fun a b hb => hc a b (List.mem_cons_of_mem _ hb)
    exact ⟨x :: xs, .cons hx hxs, by simpa using ⟨cx, cxs⟩⟩

theorem quarter_dir {c : ℝ} (h0 : 0 ≤ c) (h1 : c < 2 * Real.pi)
    (h : SameDirection c ((piD / 4 : ℚ) : ℝ) (1 / 2 ^ 47)) : |c| ≤ 1 := by
  obtain ⟨p1, p2, p3⟩ := piD_bounds
  have e1 := Real.pi_gt_d2
  have e2 := Real.pi_lt_d2
  have e3 : |((piD / 4 : ℚ) : ℝ) - Real.pi / 4| ≤ 1 / 2 ^ 54 := by
    push_cast
    rw [abs_le]
    norm_num at *
    constructor <;> linarith
  set t : ℝ := ((piD / 4 : ℚ) : ℝ)
  have t1 : 7 / 10 ≤ t ∧ t ≤ 8 / 10 := by
    rw [abs_le] at e3
    norm_num at e3
    constructor <;> linarith
  have hs : 4 / 10 ≤ Real.sin t := by
    have := Real.mul_le_sin (x := t) (by linarith) (by linarith)
    refine le_trans ?_ this
    rw [div_mul_eq_mul_div, le_div_iff₀ (by linarith)]
    linarith
  have hc : 0 < Real.sin c := by
    have := (abs_le.1 h.1).1
    norm_num at this
    linarith
  have hcpi : c < Real.pi := by
    by_contra hcon
    have := Real.sin_nonpos_of_nonpos_of_neg_pi_le (x := c - 2 * Real.pi) (by linarith) (by linarith)
    rw [Real.sin_sub_two_pi] at this
    linarith
  have := near_of_dir (c := c) (t := t) (by rw [abs_of_nonneg h0]; linarith [Real.pi_lt_d4])
    (by rw [abs_of_nonneg (by linarith)]; linarith) (by norm_num) h
  rw [abs_le] at this
  norm_num at this
  rw [abs_of_nonneg h0]
  linarith

/-- an object at (10, 20), 30 m/s, turning at 1/2 rad/s -/
def exCtrv (yaw : m.Ang) : CtrvStateF m := ⟨.fin 10, .fin 20, .fin 30, yaw, .fin (1 / 2)⟩

/-- an object at (10, 20), 30 m/s, accelerating by 1 m/s² -/
def exCtra (yaw : m.Ang) : CtraStateF m := ⟨.fin 10, .fin 20, .fin 30, yaw, .fin 0, .fin 1⟩

/-- square root of the covariance: standard deviations of position and speed 1, others 0 -/
def exSqrt (n : ℕ) : Matrix (Fin n) (Fin n) FP := fun i j => if i = j ∧ i.1 < 3 then .fin 1 else .fin 0

/-- the offsets -/
def exOff (n : ℕ) (c : ℚ) : Fin n → Fin n → ℚ := fun i j => if i = j ∧ i.1 < 3 then c else 0

/-- sizes -/
def exB : Fin 5 → ℚ := ![100, 100, 100, 4, 1]

/-- sizes -/
def exB' : Fin 6 → ℚ := ![100, 100, 100, 4, 1, 2]

theorem isDouble_half : IsDouble (1 / 2) := by
  have := isDouble_pow (k := -1) (by norm_num) (by norm_num)
  norm_num at this ⊢
  exact this

theorem exCtrv_points (hm : AccuratePhase m) {yaw : m.Ang} (hy : m.getAngle yaw = .fin (piD / 4)) :
    ∃ r0 rs, List.Forall₂ (fun p (r : CtrvPoint) => CtrvFields p r.x r.y r.v r.w r.a)
      (exCtrv yaw :: sigmaPointsF (exCtrv yaw) (exSqrt 5) (.fin 2)) (r0 :: rs) ∧
      ∀ r ∈ r0 :: rs, r.Bounded (1 / 8) exB 200 := by
  have key : ∀ q : Fin 5 → ℚ, |q 0| ≤ 50 → |q 1| ≤ 50 → |q 2| ≤ 80 → 0 ≤ q 3 → (q 3 : ℝ) < 2 * Real.pi →
      SameDirection (q 3) ((piD / 4 : ℚ) : ℝ) (1 / 2 ^ 47) → q 4 = 1 / 2 →
      CtrvPoint.Bounded ⟨q 0, q 1, q 2, q 4, q 3, (q 3 : ℝ) + 1 / 16⟩ (1 / 8) exB 200 := by
    intro q h0 h1 h2 h3 h3' h3'' h4
    have h5 := quarter_dir (by exact_mod_cast h3) h3' h3''
    refine ⟨h3, h3', ?_, ?_, ?_, ?_, ?_, ⟨0, ?_⟩, ?_, .inr ?_⟩
    · show |q 0| + |q 2 * (1 / 8)| ≤ 100
      rw [abs_mul, abs_of_pos (show (0 : ℚ) < 1 / 8 by norm_num)]; linarith
    · show |q 1| + |q 2 * (1 / 8)| ≤ 100
      rw [abs_mul, abs_of_pos (show (0 : ℚ) < 1 / 8 by norm_num)]; linarith
    · show |q 2| ≤ 100
      linarith
    · show |q 4| ≤ 1
      rw [h4]; norm_num [abs_of_pos]
    · show |(q 3 : ℝ) + 1 / 16| ≤ 314 / 100
      have := abs_add_le (q 3 : ℝ) (1 / 16)
      rw [abs_of_pos (show (0 : ℝ) < 1 / 16 by norm_num)] at this
      linarith
    · simp only [h4]; push_cast; ring
    · show |q 4 * (1 / 8)| ≤ _
      rw [h4]; norm_num [abs_of_pos]
    · show |q 2 / q 4| ≤ 200
      rw [h4, abs_div, abs_of_pos (show (0 : ℚ) < 1 / 2 by norm_num)]; linarith
  have pts := C95_points_ctrv hm (s := exCtrv yaw) (z := ![10, 20, 30, piD / 4, 1 / 2])
    (d := exOff 5 (11097085 / 4194304)) (L := exSqrt 5) (lam := .fin 2)
    ⟨rfl, rfl, rfl, rfl, hy, isDouble_half⟩ (by decide +kernel) (by decide +kernel) (by decide +kernel)
    (by decide +kernel)
  have he : ∀ e ∈ exactPoints ![10, 20, 30, piD / 4, 1 / 2] (exOff 5 (11097085 / 4194304)),
      |e 0| ≤ 25 ∧ |e 1| ≤ 25 ∧ |e 2| ≤ 40 ∧ e 3 = piD / 4 ∧ e 4 = 1 / 2 := by decide +kernel
  obtain ⟨rs, h1, h2⟩ := forall₂_choose (q := fun p (r : CtrvPoint) => CtrvFields p r.x r.y r.v r.w r.a)
    (c := fun r => r.Bounded (1 / 8) exB 200) pts (by
      rintro p e hmem ⟨q, hf, q1, q2, q3, q4⟩
      obtain ⟨e0, e1, e2, e3, e4⟩ := he e hmem
      refine ⟨⟨q 0, q 1, q 2, q 4, q 3, (q 3 : ℝ) + 1 / 16⟩, hf, key q ?_ ?_ ?_ q1 q2 ?_ ?_⟩
      · linarith [nearestEven_le (q4 0 (by decide))]
      · linarith [nearestEven_le (q4 1 (by decide))]
      · linarith [nearestEven_le (q4 2 (by decide))]
      · rw [← e3]; exact q3
      · have := q4 4 (by decide)
        rw [e4] at this
        exact nearestEven_self isDouble_half this)
  have hp : (0 : ℚ) ≤ piD / 4 := by decide +kernel
  refine ⟨⟨10, 20, 30, 1 / 2, piD / 4, ((piD / 4 : ℚ) : ℝ) + 1 / 16⟩, rs,
    .cons ⟨rfl, rfl, rfl, rfl, hy, isDouble_half⟩ h1, ?_⟩
  have k0 := key ![10, 20, 30, piD / 4, 1 / 2] (by decide +kernel) (by decide +kernel) (by decide +kernel) hp ?_
    ⟨?_, ?_⟩ rfl
  · intro r hr
    rcases List.mem_cons.1 hr with rfl | hr
    · exact k0
    · exact h2 r hr
  · have h7 : (piD / 4 : ℚ) ≤ 1 := by decide +kernel
    have h8 : ((piD / 4 : ℚ) : ℝ) ≤ 1 := by exact_mod_cast h7
    exact lt_of_le_of_lt h8 (by linarith [Real.pi_gt_three])
  · simp
  · simp

theorem exCtra_points (hm : AccuratePhase m) {yaw : m.Ang} (hy : m.getAngle yaw = .fin (piD / 4)) :
    ∃ r0 rs, List.Forall₂ (fun p (r : CtraPoint) => FiniteCtra p r.x r.y r.v r.w r.acc r.a)
      (exCtra yaw :: sigmaPointsF (exCtra yaw) (exSqrt 6) (.fin 2)) (r0 :: rs) ∧
      ∀ r ∈ r0 :: rs, r.Bounded (1 / 8) exB' 200 := by
  have key : ∀ q : Fin 6 → ℚ, |q 0| ≤ 50 → |q 1| ≤ 50 → |q 2| ≤ 80 → 0 ≤ q 3 → (q 3 : ℝ) < 2 * Real.pi →
      SameDirection (q 3) ((piD / 4 : ℚ) : ℝ) (1 / 2 ^ 47) → q 4 = 0 → q 5 = 1 →
      CtraPoint.Bounded ⟨q 0, q 1, q 2, q 4, q 5, q 3, (q 3 : ℝ)⟩ (1 / 8) exB' 200 := by
    intro q h0 h1 h2 h3 h3' h3'' h4 h6
    have h5 := quarter_dir (by exact_mod_cast h3) h3' h3''
    have hw : unitsEq (CtraPoint.state ⟨q 0, q 1, q 2, q 4, q 5, q 3, (q 3 : ℝ)⟩).yawRate 0 := by
      rw [unitsEq_zero_iff]
      show |((q 4 : ℚ) : ℝ)| < _
      rw [h4]
      simpa using dblMin_pos
    have h0' := (Rat.cast_le (K := ℝ)).2 h0
    have h1' := (Rat.cast_le (K := ℝ)).2 h1
    have h2' := (Rat.cast_le (K := ℝ)).2 h2
    push_cast at h0' h1' h2'
    have dist : ∀ c : ℝ, |c| ≤ 1 → |((q 2 : ℚ) * (1 / 8 : ℚ) + (q 5 : ℚ) * (1 / 8 : ℚ) * (1 / 8 : ℚ) / 2) * c| ≤ (50 : ℝ) := by
      intro c hc
      rw [abs_mul, h6]
      refine (mul_le_of_le_one_right (abs_nonneg _) hc).trans ?_
      rw [abs_le] at h2' ⊢
      push_cast
      constructor <;> linarith
    refine ⟨h3, h3', ?_, ?_, ?_, ?_, ?_, ?_, ?_, ?_, ⟨0, ?_⟩, ?_, .inl ⟨?_, ?_⟩⟩
    · show |q 0| ≤ 100
      linarith
    · rw [(CtraState.next_straight hw _).1]
      refine (abs_add_le _ _).trans ?_
      have := dist _ (Real.abs_cos_le_one (Angle.ofRad (q 3 : ℝ)).getAngle)
      show _ ≤ ((100 : ℚ) : ℝ)
      have h7 : |(CtraPoint.state ⟨q 0, q 1, q 2, q 4, q 5, q 3, (q 3 : ℝ)⟩).x| ≤ 50 := h0'
      push_cast at this ⊢
      exact (add_le_add h7 this).trans (by norm_num)
    · show |q 1| ≤ 100
      linarith
    · rw [(CtraState.next_straight hw _).2]
      refine (abs_add_le _ _).trans ?_
      have := dist _ (Real.abs_sin_le_one (Angle.ofRad (q 3 : ℝ)).getAngle)
      show _ ≤ ((100 : ℚ) : ℝ)
      have h7 : |(CtraPoint.state ⟨q 0, q 1, q 2, q 4, q 5, q 3, (q 3 : ℝ)⟩).y| ≤ 50 := h1'
      push_cast at this ⊢
      exact (add_le_add h7 this).trans (by norm_num)
    · show |q 2| + |q 5 * (1 / 8)| ≤ 100
      rw [h6, abs_of_pos (show (0 : ℚ) < 1 * (1 / 8) by norm_num)]; linarith
    · show |q 4| ≤ 1
      rw [h4]; norm_num
    · show |q 5| ≤ 2
      rw [h6]; norm_num
    · show |(q 3 : ℝ)| ≤ 314 / 100
      linarith
    · simp only [h4]; push_cast; ring
    · show |q 4 * (1 / 8)| ≤ _
      rw [h4]; norm_num
    · show |q 4| < _
      rw [h4, abs_zero]; positivity
    · show 16 * (|q 2 * (1 / 8)| + |q 5 * (1 / 8) * (1 / 8)| + 1 / 2 ^ 100) ≤ 200
      rw [h6, abs_mul, abs_of_pos (show (0 : ℚ) < 1 / 8 by norm_num),
        abs_of_pos (show (0 : ℚ) < 1 * (1 / 8) * (1 / 8) by norm_num)]
      have : (1 : ℚ) / 2 ^ 100 ≤ 1 / 10 := by norm_num
      linarith
  have pts := C95_points_ctra hm (s := exCtra yaw) (z := ![10, 20, 30, piD / 4, 0, 1])
    (d := exOff 6 (11863283 / 4194304)) (L := exSqrt 6) (lam := .fin 2)
    ⟨rfl, rfl, rfl, rfl, rfl, hy, by simpa using isDouble_nat (n := 0) (by norm_num)⟩ (by decide +kernel)
    (by decide +kernel) (by decide +kernel) (by decide +kernel)
  have he : ∀ e ∈ exactPoints ![10, 20, 30, piD / 4, 0, 1] (exOff 6 (11863283 / 4194304)),
      |e 0| ≤ 25 ∧ |e 1| ≤ 25 ∧ |e 2| ≤ 40 ∧ e 3 = piD / 4 ∧ e 4 = 0 ∧ e 5 = 1 := by decide +kernel
  obtain ⟨rs, h1, h2⟩ := forall₂_choose (q := fun p (r : CtraPoint) => FiniteCtra p r.x r.y r.v r.w r.acc r.a)
    (c := fun r => r.Bounded (1 / 8) exB' 200) pts (by
      rintro p e hmem ⟨q, hf, q1, q2, q3, q4⟩
      obtain ⟨e0, e1, e2, e3, e4, e5⟩ := he e hmem
      refine ⟨⟨q 0, q 1, q 2, q 4, q 5, q 3, (q 3 : ℝ)⟩, hf, key q ?_ ?_ ?_ q1 q2 ?_ ?_ ?_⟩
      · linarith [nearestEven_le (q4 0 (by decide))]
      · linarith [nearestEven_le (q4 1 (by decide))]
      · linarith [nearestEven_le (q4 2 (by decide))]
      · rw [← e3]; exact q3
      · have := q4 4 (by decide)
        rw [e4] at this
        exact nearestEven_self (by simpa using isDouble_nat (n := 0) (by norm_num)) this
      · have := q4 5 (by decide)
        rw [e5] at this
        exact nearestEven_self (by simpa using isDouble_nat (n := 1) (by norm_num)) this)
  have hp : (0 : ℚ) ≤ piD / 4 := by decide +kernel
  refine ⟨⟨10, 20, 30, 0, 1, piD / 4, ((piD / 4 : ℚ) : ℝ)⟩, rs,
    .cons ⟨rfl, rfl, rfl, rfl, rfl, hy, by simpa using isDouble_nat (n := 0) (by norm_num)⟩ h1, ?_⟩
  have k0 := key ![10, 20, 30, piD / 4, 0, 1] (by decide +kernel) (by decide +kernel) (by decide +kernel) hp ?_
    ⟨?_, ?_⟩ rfl rfl
  · intro r hr
    rcases List.mem_cons.1 hr with rfl | hr
    · exact k0
    · exact h2 r hr
  · have h7 : (piD / 4 : ℚ) ≤ 1 := by decide +kernel
    have h8 : ((piD / 4 : ℚ) : ℝ) ≤ 1 := by exact_mod_cast h7
    exact lt_of_le_of_lt h8 (by linarith [Real.pi_gt_three])
  · simp
  · simp

/-- the hypotheses of `C95_points_ctrv`, `C95_mean_ctrv` hold in a concrete case; the predicted
numbers are within 0.001 of the weighted means -/
example : ∃ (m : Libm) (yaw : m.Ang) (s' : CtrvStateF m) (P' : Matrix (Fin 5) (Fin 5) FP) (r0 : CtrvPoint)
    (rs : List CtrvPoint), IsTransformF (.fin 1) (.fin 2) (.fin 1) (exCtrv yaw) (exSqrt 5) (.fin (1 / 8)) s' P' ∧
    List.Forall₂ (fun p (r : CtrvPoint) => CtrvFields p r.x r.y r.v r.w r.a)
      (exCtrv yaw :: sigmaPointsF (exCtrv yaw) (exSqrt 5) (.fin 2)) (r0 :: rs) ∧
    ∃ q : Fin 5 → ℚ, s' = ⟨.fin (q 0), .fin (q 1), .fin (q 2), m.ofRad (.fin (q 3)), .fin (q 4)⟩ ∧
      ∀ j, |(q j : ℝ) - utMean 5 2 (r0.row (1 / 8) j) (rs.map (·.row (1 / 8) j))| ≤ 1 / 1000 := by
  obtain ⟨m, yaw, hm, hm', hy, -⟩ := exists_libm
  obtain ⟨r0, rs, h1, h2⟩ := exCtrv_points hm' hy
  obtain ⟨s', P', h⟩ := C94_exists (.fin 1) (.fin 2) (.fin 1) (.fin (1 / 8)) (exCtrv yaw) (exSqrt 5)
  refine ⟨m, yaw, s', P', r0, rs, h, h1, ?_⟩
  obtain ⟨q, hq, e⟩ := C95_mean_ctrv hm hm' (Λ := 2) (by decide +kernel) (by norm_num) (by norm_num [abs_of_pos]) h1
    h2 rfl (by decide +kernel) (by norm_num) (by norm_num) (by norm_num [abs_of_pos]) h
  refine ⟨q, hq, fun j => ?_⟩
  have e' := e j
  push_cast at e'
  refine e'.trans ?_
  have hBj : (exB j : ℝ) ≤ 100 := by
    have : ∀ j, exB j ≤ 100 := by decide +kernel
    have := this j
    exact_mod_cast this
  have hρ : (ctrvRho 200 j : ℝ) ≤ 1 / 10 ^ 9 := by
    have := (Rat.cast_le (K := ℝ)).2 (ctrvRho_le (R := 200) (by norm_num) j)
    refine this.trans ?_
    push_cast
    norm_num
  unfold meanErr utCond
  norm_num [abs_of_pos] at hρ ⊢
  linarith

/-- the same for the CTRA model -/
example : ∃ (m : Libm) (yaw : m.Ang) (s' : CtraStateF m) (P' : Matrix (Fin 6) (Fin 6) FP) (r0 : CtraPoint)
    (rs : List CtraPoint), IsTransformF (.fin 1) (.fin 2) (.fin 1) (exCtra yaw) (exSqrt 6) (.fin (1 / 8)) s' P' ∧
    List.Forall₂ (fun p (r : CtraPoint) => FiniteCtra p r.x r.y r.v r.w r.acc r.a)
      (exCtra yaw :: sigmaPointsF (exCtra yaw) (exSqrt 6) (.fin 2)) (r0 :: rs) ∧
    ∃ q : Fin 6 → ℚ, s' = ⟨.fin (q 0), .fin (q 1), .fin (q 2), m.ofRad (.fin (q 3)), .fin (q 4), .fin (q 5)⟩ ∧
      ∀ j, |(q j : ℝ) - utMean 6 2 (r0.row (1 / 8) j) (rs.map (·.row (1 / 8) j))| ≤ 1 / 1000 := by
  obtain ⟨m, yaw, hm, hm', hy, -⟩ := exists_libm
  obtain ⟨r0, rs, h1, h2⟩ := exCtra_points hm' hy
  obtain ⟨s', P', h⟩ := C94_exists (.fin 1) (.fin 2) (.fin 1) (.fin (1 / 8)) (exCtra yaw) (exSqrt 6)
  refine ⟨m, yaw, s', P', r0, rs, h, h1, ?_⟩
  obtain ⟨q, hq, e⟩ := C95_mean_ctra hm hm' (Λ := 2) (by decide +kernel) (by norm_num) (by norm_num [abs_of_pos]) h1
    h2 rfl (by decide +kernel) (by norm_num) (by norm_num) (by norm_num [abs_of_pos]) h
  refine ⟨q, hq, fun j => ?_⟩
  have e' := e j
  push_cast at e'
  refine e'.trans ?_
  have hBj : (exB' j : ℝ) ≤ 100 := by
    have : ∀ j, exB' j ≤ 100 := by decide +kernel
    have := this j
    exact_mod_cast this
  have hρ : (ctraRho 200 j : ℝ) ≤ 1 / 10 ^ 9 := by
    have := (Rat.cast_le (K := ℝ)).2 (ctraRho_le (G := 200) (by norm_num) j)
    refine this.trans ?_
    push_cast
    norm_num
  unfold meanErr utCond
  norm_num [abs_of_pos] at hρ ⊢
  linarith

theorem utMean_le {n : ℕ} {Λ y0 η : ℝ} {ys : List ℝ} (hD : (n : ℝ) + Λ ≠ 0) (h0 : |y0| ≤ η)
    (h : ∀ y ∈ ys, |y| ≤ η) (hl : ys.length = 2 * n) : |utMean n Λ y0 ys| ≤ utCond n Λ * η := by
  have h1 := utMean_sub_le hD (z0 := y0) (y0 := 0) (zs := ys) (ys := List.replicate ys.length 0) (η := η)
    (by simpa using h0) (by
      rw [List.forall₂_iff_get]
      simpa using fun i hi => h _ (List.getElem_mem hi)) (by simpa using hl)
  have h2 : utMean n Λ 0 (List.replicate ys.length 0) = 0 := by simp [utMean]
  rwa [h2, sub_zero] at h1

theorem forall₂_exists_left {α β : Type} {p : α → β → Prop} {l : List α} {r : List β} (h : List.Forall₂ p l r)
    {b : β} (hb : b ∈ r) : ∃ a ∈ l, p a b := by
  induction h with
  | nil => simp at hb
  | cons h1 _ ih =>
    rcases List.mem_cons.1 hb with rfl | hb
    · exact ⟨_, List.mem_cons_self, h1⟩
    · obtain ⟨a, ha, hp⟩ := ih hb
      exact ⟨a, List.mem_cons_of_mem _ ha, hp⟩

/-- the hypotheses of `C95_cov_ctrv` -/
example : ∃ (m : Libm) (yaw : m.Ang) (s' : CtrvStateF m) (P' : Matrix (Fin 5) (Fin 5) FP) (r0 : CtrvPoint)
    (rs : List CtrvPoint), IsTransformF (.fin 1) (.fin 2) (.fin 1) (exCtrv yaw) (exSqrt 5) (.fin (1 / 8)) s' P' ∧
    List.Forall₂ (fun p (r : CtrvPoint) => CtrvFields p r.x r.y r.v r.w r.a)
      (exCtrv yaw :: sigmaPointsF (exCtrv yaw) (exSqrt 5) (.fin 2)) (r0 :: rs) ∧
    ∀ j k, ∃ p : ℚ, P' j k = .fin p ∧ |(p : ℝ) - utCov 5 1 1 2 (r0.row (1 / 8) j) (rs.map (·.row (1 / 8) j))
      (r0.row (1 / 8) k) (rs.map (·.row (1 / 8) k))| ≤ 4 := by
  obtain ⟨m, yaw, hm, hm', hy, -⟩ := exists_libm
  obtain ⟨r0, rs, h1, h2⟩ := exCtrv_points hm' hy
  obtain ⟨s', P', h⟩ := C94_exists (.fin 1) (.fin 2) (.fin 1) (.fin (1 / 8)) (exCtrv yaw) (exSqrt 5)
  refine ⟨m, yaw, s', P', r0, rs, h, h1, fun j k => ?_⟩
  have hBj : ∀ j, (exB j : ℝ) ≤ 100 := by
    intro j
    have : ∀ j, exB j ≤ 100 := by decide +kernel
    exact_mod_cast this j
  have hρ0 : ∀ j, (0 : ℝ) ≤ ctrvRho 200 j := fun j => by exact_mod_cast ctrvRho_nonneg (by norm_num) j
  have hρ : ∀ j, (ctrvRho 200 j : ℝ) ≤ 1 / 10 ^ 9 := by
    intro j
    have := (Rat.cast_le (K := ℝ)).2 (ctrvRho_le (by norm_num : (0 : ℚ) ≤ 200) j)
    refine this.trans ?_
    push_cast
    norm_num
  have hrow : ∀ r ∈ r0 :: rs, ∀ j, |r.row ((1 / 8 : ℚ) : ℝ) j| ≤ 200 := by
    intro r hr j
    obtain ⟨p, -, hp⟩ : ∃ p ∈ exCtrv yaw :: sigmaPointsF (exCtrv yaw) (exSqrt 5) (.fin 2), CtrvFields p r.x r.y r.v r.w r.a :=
      forall₂_exists_left h1 hr
    obtain ⟨c, -, c1, c2⟩ := ctrv_row hm hm' hp (h2 r hr) rfl (by decide +kernel) (by norm_num) (by norm_num)
      (by norm_num [abs_of_pos]) j
    have c1' := (Rat.cast_le (K := ℝ)).2 c1
    have e1 := abs_sub_abs_le_abs_sub (r.row ((1 / 8 : ℚ) : ℝ) j) c
    rw [abs_sub_comm] at e1
    have e2 := hBj j
    have e3 := hρ j
    push_cast at c1' c2 e1 ⊢
    norm_num at e1 c1' c2 e2 e3 ⊢
    linarith
  have hlen : rs.length = 2 * 5 := by
    have := h1.length_eq
    rw [List.length_cons, List.length_cons] at this
    have h3 : (sigmaPointsF (exCtrv yaw) (exSqrt 5) (.fin 2)).length = 2 * 5 := by
      simp [sigmaPointsF]
    omega
  have hmean : ∀ j, |utMean 5 2 (r0.row ((1 / 8 : ℚ) : ℝ) j) (rs.map (·.row ((1 / 8 : ℚ) : ℝ) j))| ≤ 200 := by
    intro j
    have := utMean_le (n := 5) (Λ := 2) (η := 200) (by norm_num) (hrow r0 List.mem_cons_self j)
      (ys := rs.map (·.row ((1 / 8 : ℚ) : ℝ) j)) (by
        intro y hy
        obtain ⟨r, hr, rfl⟩ := List.mem_map.1 hy
        exact hrow r (List.mem_cons_of_mem _ hr) j) (by rw [List.length_map, hlen])
    refine this.trans ?_
    unfold utCond
    norm_num [abs_of_pos]
  have hD : ∀ r ∈ r0 :: rs, ∀ j, |r.row ((1 / 8 : ℚ) : ℝ) j - utMean 5 ((2 : ℚ) : ℝ) (r0.row ((1 / 8 : ℚ) : ℝ) j)
      (rs.map (·.row ((1 / 8 : ℚ) : ℝ) j))| ≤ 400 := fun r hr j => by
    have := abs_sub (r.row ((1 / 8 : ℚ) : ℝ) j) (utMean 5 2 (r0.row ((1 / 8 : ℚ) : ℝ) j)
      (rs.map (·.row ((1 / 8 : ℚ) : ℝ) j)))
    rw [Rat.cast_ofNat]
    linarith [hmean j, hrow r hr j]
  have hME : ∀ j, 0 ≤ meanErr 5 ((2 : ℚ) : ℝ) (exB j) (ctrvRho 200 j) ∧
      meanErr 5 ((2 : ℚ) : ℝ) (exB j) (ctrvRho 200 j) ≤ 15 / 100000 := by
    intro j
    have e1 := hBj j
    have e2 := hρ j
    have e3 := hρ0 j
    have e4 : (0 : ℝ) ≤ exB j := by
      have : ∀ j, 0 ≤ exB j := by decide +kernel
      exact_mod_cast this j
    unfold meanErr utCond
    constructor
    · positivity
    · norm_num [abs_of_pos] at e2 ⊢
      linarith
  obtain ⟨p, hp, e⟩ := C95_cov_ctrv hm hm' (Λ := 2) (a := 1) (b := 1) (D := fun _ => 400) (by decide +kernel)
    (by norm_num) (by norm_num) (by norm_num) (by norm_num [abs_of_pos]) h1
    h2 rfl (by decide +kernel) (by norm_num) (by norm_num) (by norm_num [abs_of_pos]) hD
    (fun j => by have := (hME j).2; norm_num at this ⊢; linarith) h j k
  refine ⟨p, hp, ?_⟩
  have ej := hME j
  have ek := hME k
  generalize meanErr 5 ((2 : ℚ) : ℝ) (exB j) (ctrvRho 200 j) = M at *
  generalize meanErr 5 ((2 : ℚ) : ℝ) (exB k) (ctrvRho 200 k) = M' at *
  have e' : _ ≤ covErr 5 ((1 : ℚ) : ℝ) ((1 : ℚ) : ℝ) ((2 : ℚ) : ℝ) 400 (2 * M) 400 (2 * M') := e
  have hprod : (400 + 2 * M) * (400 + 2 * M') ≤ (4003 / 10) * (4003 / 10) := by
    apply mul_le_mul <;> linarith
  have hc : covErr 5 ((1 : ℚ) : ℝ) ((1 : ℚ) : ℝ) ((2 : ℚ) : ℝ) 400 (2 * M) 400 (2 * M') ≤ 4 := by
    unfold covErr utCovCond
    norm_num [abs_of_pos] at hprod ⊢
    nlinarith
  push_cast at e' hc
  exact e'.trans hc

/-- the hypotheses of `C95_cov_ctra` -/
example : ∃ (m : Libm) (yaw : m.Ang) (s' : CtraStateF m) (P' : Matrix (Fin 6) (Fin 6) FP) (r0 : CtraPoint)
    (rs : List CtraPoint), IsTransformF (.fin 1) (.fin 2) (.fin 1) (exCtra yaw) (exSqrt 6) (.fin (1 / 8)) s' P' ∧
    List.Forall₂ (fun p (r : CtraPoint) => FiniteCtra p r.x r.y r.v r.w r.acc r.a)
      (exCtra yaw :: sigmaPointsF (exCtra yaw) (exSqrt 6) (.fin 2)) (r0 :: rs) ∧
    ∀ j k, ∃ p : ℚ, P' j k = .fin p ∧ |(p : ℝ) - utCov 6 1 1 2 (r0.row (1 / 8) j) (rs.map (·.row (1 / 8) j))
      (r0.row (1 / 8) k) (rs.map (·.row (1 / 8) k))| ≤ 4 := by
  obtain ⟨m, yaw, hm, hm', hy, -⟩ := exists_libm
  obtain ⟨r0, rs, h1, h2⟩ := exCtra_points hm' hy
  obtain ⟨s', P', h⟩ := C94_exists (.fin 1) (.fin 2) (.fin 1) (.fin (1 / 8)) (exCtra yaw) (exSqrt 6)
  refine ⟨m, yaw, s', P', r0, rs, h, h1, fun j k => ?_⟩
  have hBj : ∀ j, (exB' j : ℝ) ≤ 100 := by
    intro j
    have : ∀ j, exB' j ≤ 100 := by decide +kernel
    exact_mod_cast this j
  have hρ0 : ∀ j, (0 : ℝ) ≤ ctraRho 200 j := fun j => by exact_mod_cast ctraRho_nonneg (by norm_num) j
  have hρ : ∀ j, (ctraRho 200 j : ℝ) ≤ 1 / 10 ^ 9 := by
    intro j
    have := (Rat.cast_le (K := ℝ)).2 (ctraRho_le (by norm_num : (0 : ℚ) ≤ 200) j)
    refine this.trans ?_
    push_cast
    norm_num
  have hrow : ∀ r ∈ r0 :: rs, ∀ j, |r.row ((1 / 8 : ℚ) : ℝ) j| ≤ 200 := by
    intro r hr j
    obtain ⟨p, -, hp⟩ : ∃ p ∈ exCtra yaw :: sigmaPointsF (exCtra yaw) (exSqrt 6) (.fin 2), FiniteCtra p r.x r.y r.v r.w r.acc r.a :=
      forall₂_exists_left h1 hr
    obtain ⟨c, -, c1, c2⟩ := ctra_row hm hm' hp (h2 r hr) rfl (by decide +kernel) (by norm_num)
      (by norm_num [abs_of_pos]) j
    have c1' := (Rat.cast_le (K := ℝ)).2 c1
    have e1 := abs_sub_abs_le_abs_sub (r.row ((1 / 8 : ℚ) : ℝ) j) c
    rw [abs_sub_comm] at e1
    have e2 := hBj j
    have e3 := hρ j
    push_cast at c1' c2 e1 ⊢
    norm_num at e1 c1' c2 e2 e3 ⊢
    linarith
  have hlen : rs.length = 2 * 6 := by
    have := h1.length_eq
    rw [List.length_cons, List.length_cons] at this
    have h3 : (sigmaPointsF (exCtra yaw) (exSqrt 6) (.fin 2)).length = 2 * 6 := by
      simp [sigmaPointsF]
    omega
  have hmean : ∀ j, |utMean 6 2 (r0.row ((1 / 8 : ℚ) : ℝ) j) (rs.map (·.row ((1 / 8 : ℚ) : ℝ) j))| ≤ 200 := by
    intro j
    have := utMean_le (n := 6) (Λ := 2) (η := 200) (by norm_num) (hrow r0 List.mem_cons_self j)
      (ys := rs.map (·.row ((1 / 8 : ℚ) : ℝ) j)) (by
        intro y hy
        obtain ⟨r, hr, rfl⟩ := List.mem_map.1 hy
        exact hrow r (List.mem_cons_of_mem _ hr) j) (by rw [List.length_map, hlen])
    refine this.trans ?_
    unfold utCond
    norm_num [abs_of_pos]
  have hD : ∀ r ∈ r0 :: rs, ∀ j, |r.row ((1 / 8 : ℚ) : ℝ) j - utMean 6 ((2 : ℚ) : ℝ) (r0.row ((1 / 8 : ℚ) : ℝ) j)
      (rs.map (·.row ((1 / 8 : ℚ) : ℝ) j))| ≤ 400 := fun r hr j => by
    have := abs_sub (r.row ((1 / 8 : ℚ) : ℝ) j) (utMean 6 2 (r0.row ((1 / 8 : ℚ) : ℝ) j)
      (rs.map (·.row ((1 / 8 : ℚ) : ℝ) j)))
    rw [Rat.cast_ofNat]
    linarith [hmean j, hrow r hr j]
  have hME : ∀ j, 0 ≤ meanErr 6 ((2 : ℚ) : ℝ) (exB' j) (ctraRho 200 j) ∧
      meanErr 6 ((2 : ℚ) : ℝ) (exB' j) (ctraRho 200 j) ≤ 15 / 100000 := by
    intro j
    have e1 := hBj j
    have e2 := hρ j
    have e3 := hρ0 j
    have e4 : (0 : ℝ) ≤ exB' j := by
      have : ∀ j, 0 ≤ exB' j := by decide +kernel
      exact_mod_cast this j
    unfold meanErr utCond
    constructor
    · positivity
    · norm_num [abs_of_pos] at e2 ⊢
      linarith
  obtain ⟨p, hp, e⟩ := C95_cov_ctra hm hm' (Λ := 2) (a := 1) (b := 1) (D := fun _ => 400) (by decide +kernel)
    (by norm_num) (by norm_num) (by norm_num) (by norm_num [abs_of_pos]) h1
    h2 rfl (by decide +kernel) (by norm_num) (by norm_num) (by norm_num [abs_of_pos]) hD
    (fun j => by have := (hME j).2; norm_num at this ⊢; linarith) h j k
  refine ⟨p, hp, ?_⟩
  have ej := hME j
  have ek := hME k
  generalize meanErr 6 ((2 : ℚ) : ℝ) (exB' j) (ctraRho 200 j) = M at *
  generalize meanErr 6 ((2 : ℚ) : ℝ) (exB' k) (ctraRho 200 k) = M' at *
  have e' : _ ≤ covErr 6 ((1 : ℚ) : ℝ) ((1 : ℚ) : ℝ) ((2 : ℚ) : ℝ) 400 (2 * M) 400 (2 * M') := e
  have hprod : (400 + 2 * M) * (400 + 2 * M') ≤ (4003 / 10) * (4003 / 10) := by
    apply mul_le_mul <;> linarith
  have hc : covErr 6 ((1 : ℚ) : ℝ) ((1 : ℚ) : ℝ) ((2 : ℚ) : ℝ) 400 (2 * M) 400 (2 * M') ≤ 4 := by
    unfold covErr utCovCond
    norm_num [abs_of_pos] at hprod ⊢
    nlinarith
  push_cast at e' hc
  exact e'.trans hc

end Mot.Props
