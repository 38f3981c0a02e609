import Verif.Proofs.FloatTime
import Verif.Proofs.FloatFusing
import Verif.Props.FloatMotion
/-!
# Time steps as they are computed (C103)
-/

namespace Mot.Props

open Mot Spec

/-- C103: the computed time step is correct up to 2⁻⁵³ of its size, zero exactly for equal times, of
the right sign, and exact if the times are within a factor of two. -/
theorem C103_step {t s : ℚ} (ht : IsDouble t) (hs : IsDouble s) (h0 : 0 ≤ t) (h1 : 0 ≤ s) :
    ∃ d : ℚ, timeStepF (.fin t) (.fin s) = .fin d ∧ IsDouble d ∧ |d - (t - s)| ≤ |t - s| / 2 ^ 53 ∧
      (d = 0 ↔ t = s) ∧ (0 < d ↔ s < t) ∧ (d < 0 ↔ t < s) ∧
      (t ≤ 2 * s → s ≤ 2 * t → d = t - s) := by
  have hd : timeStepF (.fin t) (.fin s) = .fin (binary64.round (t - s)) := double_sub_fin ht hs h0 h1
  obtain ⟨z1, z2, z3⟩ := double_sub_zero ht hs
  exact ⟨_, hd, isDouble_of_ofRat hd, double_sub ht hs, z1, z2, z3, sterbenz ht hs h0⟩

/-- C103: the time step is a number only if both times are. -/
theorem C103_finite {t s : FP} {d : ℚ} (h : timeStepF t s = .fin d) : (∃ q, t = .fin q) ∧ ∃ q, s = .fin q := by
  constructor
  · by_contra hcon
    push Not at hcon
    exact notFin_sub_left hcon d h
  · by_contra hcon
    push Not at hcon
    exact notFin_sub hcon d h

/-- C103: propagating an object keeps its UUID and class and stamps it with exactly the time asked
for, so that propagating it to the same time again is a propagation by 0. -/
theorem C103_stamp {S C : Type} {prop : PropagatorF S C} {time : FP} {o o' : StampedF S C}
    (h : IsPropagatedF prop time o o') :
    o'.timestamp = time ∧ o'.uuid = o.uuid ∧ o'.semanticClass = o.semanticClass ∧
    prop o.state o.covariance (timeStepF time o.timestamp) o'.state o'.covariance ∧
    ∀ o'', IsPropagatedF prop time o' o'' → (∃ q, time = .fin q) →
      prop o'.state o'.covariance (.fin 0) o''.state o''.covariance := by
  obtain ⟨s, c, hp, rfl⟩ := h
  refine ⟨rfl, rfl, rfl, hp, ?_⟩
  rintro _ ⟨s', c', hp', rfl⟩ ⟨q, rfl⟩
  have : timeStepF (.fin q) (.fin q) = .fin 0 := by
    show FP.ofRat binary64 (q - q) = _
    rw [sub_self, isDouble_zero.ofRat]
  rw [← this]
  exact hp'

/-- the exact steps between consecutive times -/
def stepsOf : ℚ → List ℚ → List ℚ
  | _, [] => []
  | t, u :: ts => (u - t) :: stepsOf u ts

theorem sum_stepsOf (t : ℚ) (ts : List ℚ) : (stepsOf t ts).sum = (ts.getLast?.getD t) - t := by
  induction ts generalizing t with
  | nil => simp [stepsOf]
  | cons u ts ih =>
    rw [stepsOf, List.sum_cons, ih, List.getLast?_cons]
    simp

theorem recorded {o o' : StampedF (List FP) Unit} {t : ℚ} {ts : List ℚ} (ho : o.timestamp = .fin t)
    (hd : ∀ u ∈ t :: ts, IsDouble u ∧ 0 ≤ u) (hc : WithinTwo (t :: ts))
    (h : PropagatesF recording (ts.map .fin) o o') :
    o'.state = o.state ++ (stepsOf t ts).map .fin ∧ o'.timestamp = .fin (ts.getLast?.getD t) := by
  induction ts generalizing o t with
  | nil =>
    cases h
    exact ⟨by simp [stepsOf], by simpa using ho⟩
  | cons u ts ih =>
    rw [List.map_cons] at h
    cases h with
    | next h₁ h =>
      obtain ⟨s, c, hp, rfl⟩ := h₁
      have hc' := List.isChain_cons_cons.1 hc
      obtain ⟨e1, e2⟩ := ih (t := u) rfl (fun x hx => hd x (List.mem_cons_of_mem _ hx)) hc'.2 h
      have ht := hd t List.mem_cons_self
      have hu := hd u (List.mem_cons_of_mem _ List.mem_cons_self)
      obtain ⟨d, hd1, -, -, -, -, -, hd2⟩ := C103_step hu.1 ht.1 hu.2 ht.2
      rw [hd2 hc'.1.2 hc'.1.1] at hd1
      constructor
      · rw [e1]
        change s = o.state ++ [timeStepF (.fin u) o.timestamp] at hp
        rw [ho, hd1] at hp
        simp only [hp, stepsOf, List.map_cons, List.append_assoc, List.cons_append, List.nil_append]
      · rw [e2, List.getLast?_cons]
        simp

/-- C103: no drift.  However an object is propagated from time to time, if consecutive times are within
a factor of two the durations handed to the propagator are the exact differences of the times; they
add up to the time that has passed, and the object carries the last time. -/
theorem C103_no_drift {o o' : StampedF (List FP) Unit} {t : ℚ} {ts : List ℚ}
    (ho : o.timestamp = .fin t) (hs : o.state = []) (hd : ∀ u ∈ t :: ts, IsDouble u ∧ 0 ≤ u)
    (hc : WithinTwo (t :: ts)) (h : PropagatesF recording (ts.map .fin) o o') :
    ∃ ds : List ℚ, o'.state = ds.map .fin ∧ ds.length = ts.length ∧
      (∀ k, (ds.take k).sum = ((t :: ts).take (k + 1)).getLast?.getD t - t) ∧
      o'.timestamp = .fin (ts.getLast?.getD t) := by
  obtain ⟨h1, h2⟩ := recorded ho hd hc h
  rw [hs, List.nil_append] at h1
  refine ⟨stepsOf t ts, h1, ?_, fun k => ?_, h2⟩
  · clear h1 h2 h hc hd ho hs
    induction ts generalizing t with
    | nil => rfl
    | cons u ts ih => rw [stepsOf, List.length_cons, ih, List.length_cons]
  · have : (stepsOf t ts).take k = stepsOf t (ts.take k) := by
      clear h1 h2 h hc hd ho hs
      induction ts generalizing t k with
      | nil => simp [stepsOf]
      | cons u ts ih =>
        cases k with
        | zero => simp [stepsOf]
        | succ k => rw [List.take_succ_cons, stepsOf, stepsOf, List.take_succ_cons, ih]
    rw [this, sum_stepsOf, List.take_succ_cons, List.getLast?_cons]
    simp

/-! ### Clocks -/

theorem stored_clock {T t : ℚ} (hT : OnClock T) (h : Stored T t) :
    IsDouble t ∧ |t - T| ≤ 1 / 2 ^ 23 ∧ 2 ^ 30 ≤ t ∧ t ≤ 2 ^ 31 := by
  obtain ⟨m, e, hc, hv, hn⟩ := h
  obtain ⟨h1, h2⟩ := hT
  have lo := (hn (2 ^ 52) (-22) ⟨by norm_num, by norm_num, .inl (by norm_num)⟩).1
  have hi := (hn (2 ^ 52) (-21) ⟨by norm_num, by norm_num, .inl (by norm_num)⟩).1
  have el : (((2 : ℤ) ^ 52 : ℤ) : ℚ) * (2 : ℚ) ^ (-22 : ℤ) = 2 ^ 30 := by norm_num
  have eh : (((2 : ℤ) ^ 52 : ℤ) : ℚ) * (2 : ℚ) ^ (-21 : ℤ) = 2 ^ 31 := by norm_num
  rw [el, abs_of_nonpos (a := 2 ^ 30 - T) (by linarith)] at lo
  rw [eh, abs_of_nonneg (a := 2 ^ 31 - T) (by linarith)] at hi
  have b1 : 2 ^ 30 ≤ t := by
    have := neg_abs_le (t - T)
    linarith
  have b2 : t ≤ 2 ^ 31 := by
    have := le_abs_self (t - T)
    linarith
  refine ⟨⟨m, e, hc, hv, ?_⟩, ?_, b1, b2⟩
  · rw [abs_of_nonneg (le_trans (by norm_num) b1)]
    refine b2.trans_lt ?_
    rw [show (2 : ℚ) ^ 31 = (2 : ℚ) ^ (31 : ℤ) by norm_num]
    exact zpow_lt_zpow_right₀ (by norm_num) (by norm_num)
  · obtain ⟨m', e', hc', hv', -⟩ := binary64.round_nearestEven (by decide) T
    have h3 := (hn m' e' hc').1
    rw [← hv'] at h3
    have hT0 : T ≠ 0 := by
      rintro rfl
      norm_num at h1
    have h4 := binary64.abs_round_sub_le_of_lt (x := T) (e := 31)
      (by rw [abs_of_nonneg (le_trans (by norm_num) h1)]; exact_mod_cast h2) hT0 (by decide)
    have e5 : (2 : ℚ) ^ ((31 : ℤ) - binary64.prec) / 2 = 1 / 2 ^ 23 := by
      show (2 : ℚ) ^ ((31 : ℤ) - ((53 : ℕ) : ℤ)) / 2 = 1 / 2 ^ 23
      norm_num
    rw [e5] at h4
    exact h3.trans h4

/-- C103: for instants between 2004 and 2038 stored as seconds since 1970 the computed time step is
the exact difference of the stored times and is within 2⁻²² s of the time between the instants; an
earlier instant is never taken for a later one. -/
theorem C103_clock {T₁ T₂ t₁ t₂ : ℚ} (h1 : OnClock T₁) (h2 : OnClock T₂) (s1 : Stored T₁ t₁)
    (s2 : Stored T₂ t₂) :
    ∃ d, timeStepF (.fin t₂) (.fin t₁) = .fin d ∧ d = t₂ - t₁ ∧ |d - (T₂ - T₁)| ≤ 1 / 2 ^ 22 ∧
      (T₁ < T₂ → 0 ≤ d) := by
  obtain ⟨d1, e1, l1, u1⟩ := stored_clock h1 s1
  obtain ⟨d2, e2, l2, u2⟩ := stored_clock h2 s2
  obtain ⟨d, hd, -, -, -, -, -, hx⟩ := C103_step d2 d1 (le_trans (by norm_num) l2) (le_trans (by norm_num) l1)
  have hx := hx (by norm_num at *; linarith) (by norm_num at *; linarith)
  refine ⟨d, hd, hx, ?_, fun hlt => ?_⟩
  · rw [hx]
    rw [abs_le] at e1 e2 ⊢
    norm_num at *
    constructor <;> linarith
  · by_contra hcon
    have hlt' : t₂ < t₁ := by linarith
    obtain ⟨m₁, k₁, c₁, v₁, n₁⟩ := s1
    obtain ⟨m₂, k₂, c₂, v₂, n₂⟩ := s2
    have a1 := (n₁ m₂ k₂ c₂).1
    have a2 := (n₂ m₁ k₁ c₁).1
    rw [← v₂] at a1
    rw [← v₁] at a2
    have b1 := sq_le_sq.2 a1
    have b2 := sq_le_sq.2 a2
    nlinarith

/-! ### Positions -/

section
variable {m : Libm} {s : CtrvStateF m} {x y v w a : ℚ}

/-- the exact position depends on the duration by at most the speed -/
theorem next_lipschitz (s : CtrvState) (t u : ℝ) :
    |(s.next t).x - (s.next u).x| ≤ |s.v| * |t - u| ∧ |(s.next t).y - (s.next u).y| ≤ |s.v| * |t - u| := by
  by_cases h : unitsEq s.yawRate 0
  · obtain ⟨h1, h2⟩ := CtrvState.next_straight h t
    obtain ⟨h3, h4⟩ := CtrvState.next_straight h u
    rw [h1, h2, h3, h4]
    have key : ∀ c : ℝ, |c| ≤ 1 → |s.v * t * c - s.v * u * c| ≤ |s.v| * |t - u| := by
      intro c hc
      rw [show s.v * t * c - s.v * u * c = s.v * (t - u) * c by ring, abs_mul, abs_mul]
      exact mul_le_of_le_one_right (by positivity) hc
    constructor
    · refine le_of_eq_of_le (congrArg _ ?_) (key _ (Real.abs_cos_le_one s.yaw.getAngle))
      ring
    · refine le_of_eq_of_le (congrArg _ ?_) (key _ (Real.abs_sin_le_one s.yaw.getAngle))
      ring
  · have h0 := ne_zero_of_not_unitsEq h
    obtain ⟨h1, h2⟩ := CtrvState.next_turn h t
    obtain ⟨h3, h4⟩ := CtrvState.next_turn h u
    rw [h1, h2, h3, h4]
    have key : ∀ d : ℝ, |d| ≤ |s.yawRate * t - s.yawRate * u| →
        |s.v / s.yawRate * d| ≤ |s.v| * |t - u| := by
      intro d hd
      rw [← mul_sub, abs_mul] at hd
      rw [abs_mul, abs_div, div_mul_eq_mul_div, div_le_iff₀ (abs_pos.2 h0)]
      nlinarith [abs_nonneg s.v]
    constructor
    · refine le_of_eq_of_le (congrArg _ ?_) (key (Real.sin (s.yaw.getAngle + s.yawRate * t) -
        Real.sin (s.yaw.getAngle + s.yawRate * u)) ((Real.abs_sin_sub_sin_le _ _).trans_eq ?_))
      · ring
      · congr 1; ring
    · refine le_of_eq_of_le (congrArg _ ?_) (key (Real.cos (s.yaw.getAngle + s.yawRate * u) -
        Real.cos (s.yaw.getAngle + s.yawRate * t)) ((Real.abs_cos_sub_cos_le _ _).trans_eq ?_))
      · ring
      · rw [abs_sub_comm]; congr 1; ring

/-- C103: the computed position of a turning CTRV object at the instant T₂, predicted from its state
at T₁, with both instants stored as seconds since 1970: besides the error of C89 an error of the
distance travelled in 2⁻²¹ s. -/
theorem C103_position_turn (hm : AccurateTrig m) (hs : CtrvFields s x y v w a) (ha : 0 ≤ a)
    (ha' : (a : ℝ) < 2 * Real.pi) (hx : |x| ≤ 2 ^ 200) (hy : |y| ≤ 2 ^ 200)
    (hw : (2 : ℚ) ^ (-1022 : ℤ) ≤ |w|) (hQ : |v / w| ≤ 2 ^ 200) {T₁ T₂ t₁ t₂ : ℚ}
    (h1 : OnClock T₁) (h2 : OnClock T₂) (s1 : Stored T₁ t₁) (s2 : Stored T₂ t₂)
    (hΘ : |w * (t₂ - t₁)| ≤ 2 ^ 19) :
    ∃ X Y : ℚ, (s.next (timeStepF (.fin t₂) (.fin t₁))).x = .fin X ∧
      (s.next (timeStepF (.fin t₂) (.fin t₁))).y = .fin Y ∧
      |(X : ℝ) - (CtrvState.next ⟨x, y, v, Angle.ofRad a, w⟩ (T₂ - T₁)).x| ≤
        |(x : ℝ)| / 2 ^ 53 + |(v / w : ℝ)| / 2 ^ 48 + 3 * |(v * (T₂ - T₁) : ℝ)| / 2 ^ 53 +
          |(v : ℝ)| / 2 ^ 21 + 1 / 2 ^ 194 ∧
      |(Y : ℝ) - (CtrvState.next ⟨x, y, v, Angle.ofRad a, w⟩ (T₂ - T₁)).y| ≤
        |(y : ℝ)| / 2 ^ 53 + |(v / w : ℝ)| / 2 ^ 48 + 3 * |(v * (T₂ - T₁) : ℝ)| / 2 ^ 53 +
          |(v : ℝ)| / 2 ^ 21 + 1 / 2 ^ 194 := by
  obtain ⟨d, hd, rfl, he, -⟩ := C103_clock h1 h2 s1 s2
  have he' : |((t₂ - t₁ : ℚ) : ℝ) - ((T₂ : ℝ) - T₁)| ≤ 1 / 2 ^ 22 := by
    have h := (Rat.cast_le (K := ℝ)).2 he
    push_cast at h ⊢
    exact h
  obtain ⟨X, Y, hX, hY, bX, bY⟩ := C89_accuracy_turn s hm hs ha ha' hx hy hw hQ _ hΘ
  rw [hd]
  obtain ⟨l1, l2⟩ := next_lipschitz ⟨x, y, v, Angle.ofRad a, w⟩ ((t₂ - t₁ : ℚ) : ℝ) (T₂ - T₁)
  have hv := abs_nonneg (v : ℝ)
  have l3 : |(v : ℝ)| * |((t₂ - t₁ : ℚ) : ℝ) - (T₂ - T₁)| ≤ |(v : ℝ)| / 2 ^ 22 := by
    rw [div_eq_mul_one_div]
    exact mul_le_mul_of_nonneg_left he' hv
  have l4 : |(v * (t₂ - t₁ : ℚ) : ℝ)| ≤ |(v * (T₂ - T₁) : ℝ)| + |(v : ℝ)| / 2 ^ 22 := by
    have := abs_add_le (v * (T₂ - T₁) : ℝ) (v * (((t₂ - t₁ : ℚ) : ℝ) - (T₂ - T₁)))
    rw [abs_mul (v : ℝ) (((t₂ - t₁ : ℚ) : ℝ) - (T₂ - T₁)), ← mul_add, add_sub_cancel] at this
    linarith
  refine ⟨X, Y, hX, hY, (abs_sub_le _ _ _).trans ((add_le_add bX (l1.trans l3)).trans ?_),
    (abs_sub_le _ _ _).trans ((add_le_add bY (l2.trans l3)).trans ?_)⟩ <;>
  · generalize |(v * (t₂ - t₁ : ℚ) : ℝ)| = A at *
    generalize |(v * (T₂ - T₁) : ℝ)| = B at *
    generalize |(v : ℝ)| = V at *
    norm_num at *
    linarith

/-- C103: the same without turning. -/
theorem C103_position_straight (hm : AccurateTrig m) (hs : CtrvFields s x y v w a) (ha : 0 ≤ a)
    (ha' : (a : ℝ) < 2 * Real.pi) (hx : |x| ≤ 2 ^ 200) (hy : |y| ≤ 2 ^ 200)
    (hw : |w| < (2 : ℚ) ^ (-1022 : ℤ)) (hv : |v| ≤ 2 ^ 100) {T₁ T₂ t₁ t₂ : ℚ}
    (h1 : OnClock T₁) (h2 : OnClock T₂) (s1 : Stored T₁ t₁) (s2 : Stored T₂ t₂) :
    ∃ X Y : ℚ, (s.next (timeStepF (.fin t₂) (.fin t₁))).x = .fin X ∧
      (s.next (timeStepF (.fin t₂) (.fin t₁))).y = .fin Y ∧
      |(X : ℝ) - (CtrvState.next ⟨x, y, v, Angle.ofRad a, w⟩ (T₂ - T₁)).x| ≤
        |(x : ℝ)| / 2 ^ 53 + 7 * |(v * (T₂ - T₁) : ℝ)| / 2 ^ 53 + |(v : ℝ)| / 2 ^ 21 + 1 / 2 ^ 97 ∧
      |(Y : ℝ) - (CtrvState.next ⟨x, y, v, Angle.ofRad a, w⟩ (T₂ - T₁)).y| ≤
        |(y : ℝ)| / 2 ^ 53 + 7 * |(v * (T₂ - T₁) : ℝ)| / 2 ^ 53 + |(v : ℝ)| / 2 ^ 21 + 1 / 2 ^ 97 := by
  obtain ⟨d, hd, rfl, he, -⟩ := C103_clock h1 h2 s1 s2
  have he' : |((t₂ - t₁ : ℚ) : ℝ) - ((T₂ : ℝ) - T₁)| ≤ 1 / 2 ^ 22 := by
    have h := (Rat.cast_le (K := ℝ)).2 he
    push_cast at h ⊢
    exact h
  have hdt : |t₂ - t₁| ≤ 2 ^ 100 := by
    obtain ⟨-, -, a1, a2⟩ := stored_clock h1 s1
    obtain ⟨-, -, a3, a4⟩ := stored_clock h2 s2
    rw [abs_le]
    norm_num at *
    constructor <;> linarith
  obtain ⟨X, Y, hX, hY, bX, bY⟩ := C89_accuracy_straight s hm hs ha ha' hx hy hw hv _ hdt
  rw [hd]
  obtain ⟨l1, l2⟩ := next_lipschitz ⟨x, y, v, Angle.ofRad a, w⟩ ((t₂ - t₁ : ℚ) : ℝ) (T₂ - T₁)
  have hv := abs_nonneg (v : ℝ)
  have l3 : |(v : ℝ)| * |((t₂ - t₁ : ℚ) : ℝ) - (T₂ - T₁)| ≤ |(v : ℝ)| / 2 ^ 22 := by
    rw [div_eq_mul_one_div]
    exact mul_le_mul_of_nonneg_left he' hv
  have l4 : |(v * (t₂ - t₁ : ℚ) : ℝ)| ≤ |(v * (T₂ - T₁) : ℝ)| + |(v : ℝ)| / 2 ^ 22 := by
    have := abs_add_le (v * (T₂ - T₁) : ℝ) (v * (((t₂ - t₁ : ℚ) : ℝ) - (T₂ - T₁)))
    rw [abs_mul (v : ℝ) (((t₂ - t₁ : ℚ) : ℝ) - (T₂ - T₁)), ← mul_add, add_sub_cancel] at this
    linarith
  refine ⟨X, Y, hX, hY, (abs_sub_le _ _ _).trans ((add_le_add bX (l1.trans l3)).trans ?_),
    (abs_sub_le _ _ _).trans ((add_le_add bY (l2.trans l3)).trans ?_)⟩ <;>
  · generalize |(v * (t₂ - t₁ : ℚ) : ℝ)| = A at *
    generalize |(v * (T₂ - T₁) : ℝ)| = B at *
    generalize |(v : ℝ)| = V at *
    norm_num at *
    linarith

end

/-! ### Times that are not numbers -/

section
variable {m : Libm}

/-- sine and cosine of infinities and NaN are NaN -/
def TrigNan (m : Libm) : Prop := ∀ z : FP, z.NotFin → m.sin z = .nan ∧ m.cos z = .nan

theorem notFin_nan : FP.NotFin .nan := fun _ => by simp

theorem notFin_neg {a : FP} (h : a.NotFin) : a.neg.NotFin := by
  cases a with
  | fin q => exact absurd rfl (h q)
  | nan => exact notFin_nan
  | inf s => exact notFin_inf _

theorem next_notFin_ctrv (hm : TrigNan m) (s : CtrvStateF m) {dt : FP} (h : dt.NotFin) :
    (s.next dt).x.NotFin ∧ (s.next dt).y.NotFin := by
  unfold CtrvStateF.next
  simp only
  split
  · exact ⟨notFin_add (.inr (notFin_mul (.inr h))), notFin_add (.inr (notFin_mul (.inr h)))⟩
  · have hz := hm (FP.add binary64 (m.getAngle s.yaw) (FP.mul binary64 s.yawRate dt))
      (notFin_add (.inr (notFin_mul (.inr h))))
    rw [hz.1, hz.2]
    exact ⟨notFin_add (.inr (notFin_mul (.inl (notFin_mul (.inr (notFin_sub_left notFin_nan)))))),
      notFin_sub (notFin_mul (.inl (notFin_mul (.inr (notFin_sub_left notFin_nan)))))⟩

theorem next_notFin_ctra (s : CtraStateF m) {dt : FP} (h : dt.NotFin) :
    (s.next dt).x.NotFin ∧ (s.next dt).y.NotFin := by
  have hv : (FP.add binary64 s.v (FP.mul binary64 s.a dt)).NotFin := notFin_add (.inr (notFin_mul (.inr h)))
  unfold CtraStateF.next
  simp only
  split
  · exact ⟨notFin_add (.inr (notFin_mul (.inl (notFin_add (.inl (notFin_mul (.inr h))))))),
      notFin_add (.inr (notFin_mul (.inl (notFin_add (.inl (notFin_mul (.inr h)))))))⟩
  · exact ⟨notFin_add (.inr (notFin_mul (.inr (notFin_sub_left (notFin_sub_left (notFin_add (.inl
        (notFin_mul (.inl (notFin_mul (.inl hv))))))))))),
      notFin_add (.inr (notFin_mul (.inr (notFin_sub_left (notFin_add (.inl (notFin_add (.inl
        (notFin_mul (.inl (notFin_mul (.inl (notFin_neg hv)))))))))))))⟩

/-- the first row of the sigma points is the predicted state -/
theorem mean_notFin {S : Type} {n : ℕ} [MotionModelF S n] {α β κ : FP} {lam dt : FP} {s : S}
    {L : Matrix (Fin n) (Fin n) FP} {j : Fin n} {x : FP}
    (hj : (MotionModelF.toVec (MotionModelF.next s dt) j).NotFin)
    (h : IsMeanF (weightsF n α β lam).1 ((predictedRowsF s L dt κ).map (· j)) x) : x.NotFin := by
  unfold predictedRowsF at h
  simp only [List.map_cons] at h
  refine SumsTo.notFin h ?_
  simp only [weightsF, List.zipWith_cons_cons, List.mem_cons]
  exact ⟨_, .inl rfl, notFin_mul (.inr (rotateYawF_notFin hj))⟩

/-- C103: if the time asked for or the time stamp is infinite or NaN, no coordinate of the position
predicted by the unscented transform is a number, whatever state, covariance and parameters. -/
theorem C103_not_a_time (hm : TrigNan m) {α β κ time : FP} :
    (∀ o o' : StampedF (CtrvStateF m) (Matrix (Fin 5) (Fin 5) FP),
      time.NotFin ∨ o.timestamp.NotFin → IsPropagatedF (unscentedF α β κ) time o o' →
      o'.state.x.NotFin ∧ o'.state.y.NotFin) ∧
    (∀ o o' : StampedF (CtraStateF m) (Matrix (Fin 6) (Fin 6) FP),
      time.NotFin ∨ o.timestamp.NotFin → IsPropagatedF (unscentedF α β κ) time o o' →
      o'.state.x.NotFin ∧ o'.state.y.NotFin) := by
  constructor
  · rintro o _ hn ⟨s', P', ⟨L, x, hx, -, rfl⟩, rfl⟩
    have hd : (timeStepF time o.timestamp).NotFin := hn.elim notFin_sub_left notFin_sub
    obtain ⟨n1, n2⟩ := next_notFin_ctrv hm o.state hd
    exact ⟨notFin_conv (mean_notFin (j := 0) (notFin_conv n1) (hx 0)),
      notFin_conv (mean_notFin (j := 1) (notFin_conv n2) (hx 1))⟩
  · rintro o _ hn ⟨s', P', ⟨L, x, hx, -, rfl⟩, rfl⟩
    have hd : (timeStepF time o.timestamp).NotFin := hn.elim notFin_sub_left notFin_sub
    obtain ⟨n1, n2⟩ := next_notFin_ctra o.state hd
    exact ⟨notFin_conv (mean_notFin (j := 0) (notFin_conv n1) (hx 0)),
      notFin_conv (mean_notFin (j := 1) (notFin_conv n2) (hx 1))⟩

end

/-! ### Examples -/

/-- times of 1 700 000 000 s and a tenth of a second later (as stored) -/
example : timeStepF (.fin (1700000000 + 419430 / 2 ^ 22)) (.fin 1700000000) = .fin (419430 / 2 ^ 22) ∧
    timeStepF (.fin 1700000000) (.fin (1700000000 + 419430 / 2 ^ 22)) = .fin (-(419430 / 2 ^ 22)) ∧
    timeStepF (.inf false) (.inf false) = .nan ∧ timeStepF (.fin 1) (.inf false) = .inf true := by
  refine ⟨by decide +kernel, by decide +kernel, rfl, rfl⟩

/-- times far apart: the step is rounded -/
example : timeStepF (.fin (2 ^ 53)) (.fin (1 / 2)) = .fin (2 ^ 53) := by decide +kernel

/-- an instant and what is stored for it -/
example : OnClock (1700000000 + 1 / 10) ∧ Stored (1700000000 + 1 / 10) (1700000000 + 419430 / 2 ^ 22) := by
  refine ⟨by unfold OnClock; norm_num, ?_⟩
  have h : binary64.round (1700000000 + 1 / 10) = 1700000000 + 419430 / 2 ^ 22 := by decide +kernel
  rw [← h]
  exact binary64.round_nearestEven (by decide) _

/-- two different instants with the same stored time: the step is 0 -/
example : Stored 1700000000 1700000000 ∧ Stored (1700000000 + 1 / 2 ^ 24) 1700000000 := by
  have h1 : binary64.round 1700000000 = 1700000000 := by decide +kernel
  have h2 : binary64.round (1700000000 + 1 / 2 ^ 24) = 1700000000 := by decide +kernel
  refine ⟨?_, ?_⟩
  · have := binary64.round_nearestEven (by decide) 1700000000
    rwa [h1] at this
  · have := binary64.round_nearestEven (by decide) (1700000000 + 1 / 2 ^ 24)
    rwa [h2] at this

/-- a run of two propagations -/
example : ∃ o', PropagatesF recording ([3, 4].map .fin) (⟨.fin 2, [], (), ⟨[1]⟩, .unknown⟩) o' ∧
    WithinTwo [2, 3, 4] ∧ (∀ u ∈ [2, 3, 4], IsDouble u ∧ 0 ≤ u) ∧ o'.state = [.fin 1, .fin 1] := by
  have hi : ∀ u : ℚ, binary64.round u = u → |u| < 8 → IsDouble u := by
    intro u hu h8
    rw [← hu]
    refine isDouble_round ?_
    rw [hu]
    refine h8.trans ?_
    rw [show (8 : ℚ) = (2 : ℚ) ^ (3 : ℤ) by norm_num]
    exact zpow_lt_zpow_right₀ (by norm_num) (by norm_num)
  refine ⟨_, .next ⟨_, (), rfl, rfl⟩ (.next ⟨_, (), rfl, rfl⟩ (.none _)), ?_, ?_, ?_⟩
  · unfold WithinTwo
    simp only [List.isChain_cons_cons, List.isChain_singleton]
    norm_num
  · intro u hu
    simp only [List.mem_cons, List.not_mem_nil, or_false] at hu
    rcases hu with rfl | rfl | rfl <;>
      exact ⟨hi _ (by decide +kernel) (by norm_num [abs_of_pos]), by norm_num⟩
  · decide +kernel

/-- the hypotheses of `C103_position_turn` are met: 10 m/s, yaw rate 1/2, heading 1 rad, a tenth of a
second from 1 700 000 000 s; the computed position is within 5·10⁻⁶ m -/
example : ∃ (m : Libm) (s : CtrvStateF m) (X Y : ℚ),
    (s.next (timeStepF (.fin (1700000000 + 419430 / 2 ^ 22)) (.fin 1700000000))).x = .fin X ∧
    (s.next (timeStepF (.fin (1700000000 + 419430 / 2 ^ 22)) (.fin 1700000000))).y = .fin Y ∧
    |(X : ℝ) - (CtrvState.next ⟨3, 4, 10, Angle.ofRad 1, 1 / 2⟩ (1 / 10)).x| ≤ 5 / 10 ^ 6 := by
  obtain ⟨m, hm, yaw, hy⟩ := exists_accurateTrig
  have hh : (2 : ℚ) ^ (-1 : ℤ) = 1 / 2 := by norm_num
  have hs : CtrvFields (m := m) ⟨.fin 3, .fin 4, .fin 10, yaw, .fin (1 / 2)⟩ 3 4 10 (1 / 2) 1 :=
    ⟨rfl, rfl, rfl, rfl, hy, by rw [← hh]; exact isDouble_pow (by norm_num) (by norm_num)⟩
  have hw : (2 : ℚ) ^ (-1022 : ℤ) ≤ |1 / 2| := by
    rw [abs_of_pos (by norm_num), ← hh]
    exact zpow_le_zpow_right₀ (by norm_num) (by norm_num)
  have s1 : Stored 1700000000 1700000000 := by
    have h : binary64.round 1700000000 = 1700000000 := by decide +kernel
    have := binary64.round_nearestEven (by decide) 1700000000
    rwa [h] at this
  have s2 : Stored (1700000000 + 1 / 10) (1700000000 + 419430 / 2 ^ 22) := by
    have h : binary64.round (1700000000 + 1 / 10) = 1700000000 + 419430 / 2 ^ 22 := by decide +kernel
    rw [← h]
    exact binary64.round_nearestEven (by decide) _
  obtain ⟨X, Y, hX, hY, h, -⟩ := C103_position_turn hm hs (by norm_num)
    (by have := Real.pi_gt_three; push_cast; linarith) (by norm_num) (by norm_num) hw (by norm_num)
    (T₁ := 1700000000) (T₂ := 1700000000 + 1 / 10) (by unfold OnClock; norm_num)
    (by unfold OnClock; norm_num) s1 s2 (by norm_num)
  refine ⟨m, _, X, Y, hX, hY, ?_⟩
  push_cast at h
  rw [show (1700000000 : ℝ) + 1 / 10 - 1700000000 = 1 / 10 by norm_num] at h
  refine h.trans ?_
  norm_num

/-- a library as `TrigNan` asks for -/
example : ∃ m : Libm, TrigNan m ∧ m.sin (.fin 0) = .fin 0 ∧ m.cos (.fin 0) = .fin 1 := by
  refine ⟨⟨Unit, fun a => match a with | .fin _ => .fin 0 | _ => .nan,
    fun a => match a with | .fin _ => .fin 1 | _ => .nan, fun _ => (), fun _ => .fin 0⟩, ?_, rfl, rfl⟩
  intro z hz
  cases z with
  | fin q => exact absurd rfl (hz q)
  | nan => exact ⟨rfl, rfl⟩
  | inf s => exact ⟨rfl, rfl⟩

end Mot.Props
