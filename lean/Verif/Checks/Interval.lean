import Mathlib.Analysis.Complex.Trigonometric
import Mathlib.Analysis.SpecialFunctions.Trigonometric.Bounds
import Mathlib.Tactic.NormNum
import Mathlib.Tactic.Linarith
import Mathlib.Tactic.FieldSimp
import Mathlib.Data.Rat.Floor
/-!
# Interval arithmetic

Intervals with rational end points, used to compare values of the model (real numbers) with the
decimal numbers expected by the unit tests of the repository.  Not part of the model.
-/

namespace Mot.Checks

/-- an interval -/
structure Ivl where
  lo : ℚ
  hi : ℚ
  deriving DecidableEq

namespace Ivl

/-- the real number `x` lies in the interval -/
def Has (I : Ivl) (x : ℝ) : Prop := (I.lo : ℝ) ≤ x ∧ x ≤ I.hi

/-- a number -/
def pt (q : ℚ) : Ivl := ⟨q, q⟩

/-- inclusion -/
def sub? (I J : Ivl) : Bool := decide (J.lo ≤ I.lo) && decide (I.hi ≤ J.hi)

theorem Has.mono {I J : Ivl} {x : ℝ} (h : I.Has x) (hs : I.sub? J = true) : J.Has x := by
  simp only [sub?, Bool.and_eq_true, decide_eq_true_eq] at hs
  exact ⟨le_trans (by exact_mod_cast hs.1) h.1, le_trans h.2 (by exact_mod_cast hs.2)⟩

theorem has_pt (q : ℚ) : (pt q).Has q := ⟨le_rfl, le_rfl⟩

theorem has_num {x : ℝ} {q : ℚ} (h : x = q) : (pt q).Has x := h ▸ has_pt q

/-- sum -/
def add (I J : Ivl) : Ivl := ⟨I.lo + J.lo, I.hi + J.hi⟩

theorem Has.add {I J : Ivl} {x y : ℝ} (hx : I.Has x) (hy : J.Has y) : (I.add J).Has (x + y) := by
  obtain ⟨h1, h2⟩ := hx
  obtain ⟨h3, h4⟩ := hy
  constructor <;> simp only [Ivl.add] <;> push_cast <;> linarith

/-- negation -/
def neg (I : Ivl) : Ivl := ⟨-I.hi, -I.lo⟩

theorem Has.neg {I : Ivl} {x : ℝ} (hx : I.Has x) : I.neg.Has (-x) := by
  obtain ⟨h1, h2⟩ := hx
  constructor <;> simp only [Ivl.neg] <;> push_cast <;> linarith

/-- difference -/
def sub (I J : Ivl) : Ivl := ⟨I.lo - J.hi, I.hi - J.lo⟩

theorem Has.sub {I J : Ivl} {x y : ℝ} (hx : I.Has x) (hy : J.Has y) : (I.sub J).Has (x - y) := by
  obtain ⟨h1, h2⟩ := hx
  obtain ⟨h3, h4⟩ := hy
  constructor <;> simp only [Ivl.sub] <;> push_cast <;> linarith

/-- product -/
def mul (I J : Ivl) : Ivl :=
  ⟨min (min (I.lo * J.lo) (I.lo * J.hi)) (min (I.hi * J.lo) (I.hi * J.hi)),
   max (max (I.lo * J.lo) (I.lo * J.hi)) (max (I.hi * J.lo) (I.hi * J.hi))⟩

theorem mul_between {a b x t : ℝ} (h1 : a ≤ x) (h2 : x ≤ b) :
    min (a * t) (b * t) ≤ x * t ∧ x * t ≤ max (a * t) (b * t) := by
  rcases le_total 0 t with h | h
  · exact ⟨(min_le_left _ _).trans (mul_le_mul_of_nonneg_right h1 h),
      (mul_le_mul_of_nonneg_right h2 h).trans (le_max_right _ _)⟩
  · exact ⟨(min_le_right _ _).trans (mul_le_mul_of_nonpos_right h2 h),
      (mul_le_mul_of_nonpos_right h1 h).trans (le_max_left _ _)⟩

theorem Has.mul {I J : Ivl} {x y : ℝ} (hx : I.Has x) (hy : J.Has y) : (I.mul J).Has (x * y) := by
  have hxy := mul_between (t := y) hx.1 hx.2
  have ha := mul_between (t := (I.lo : ℝ)) hy.1 hy.2
  have hb := mul_between (t := (I.hi : ℝ)) hy.1 hy.2
  simp only [mul_comm _ (I.lo : ℝ), mul_comm _ (I.hi : ℝ)] at ha hb
  constructor
  · simp only [Ivl.mul]
    push_cast
    refine le_trans ?_ hxy.1
    exact min_le_min ha.1 hb.1
  · simp only [Ivl.mul]
    push_cast
    refine le_trans hxy.2 ?_
    exact max_le_max ha.2 hb.2

/-- inverse of a positive number -/
def inv (I : Ivl) : Ivl := ⟨1 / I.hi, 1 / I.lo⟩

theorem Has.inv {I : Ivl} {x : ℝ} (hx : I.Has x) (h : 0 < I.lo) : I.inv.Has x⁻¹ := by
  obtain ⟨h1, h2⟩ := hx
  have h0 : (0 : ℝ) < I.lo := by exact_mod_cast h
  constructor <;> simp only [Ivl.inv] <;> push_cast
  · rw [← one_div]
    exact one_div_le_one_div_of_le (by linarith) h2
  · rw [← one_div]
    exact one_div_le_one_div_of_le h0 h1

theorem Has.div {I J : Ivl} {x y : ℝ} (hx : I.Has x) (hy : J.Has y) (h : 0 < J.lo) :
    (I.mul J.inv).Has (x / y) := by
  rw [div_eq_mul_inv]
  exact hx.mul (hy.inv h)

/-- end points rounded outwards to multiples of `10⁻¹⁶` -/
def out (I : Ivl) : Ivl := ⟨⌊I.lo * 10 ^ 16⌋ / 10 ^ 16, ⌈I.hi * 10 ^ 16⌉ / 10 ^ 16⟩

theorem Has.out {I : Ivl} {x : ℝ} (hx : I.Has x) : I.out.Has x := by
  refine hx.mono ?_
  simp only [sub?, Bool.and_eq_true, decide_eq_true_eq]
  unfold Ivl.out
  constructor
  · rw [div_le_iff₀ (by norm_num)]
    exact Int.floor_le _
  · rw [le_div_iff₀ (by norm_num)]
    exact Int.le_ceil _

/-- is the interval an enclosure of the square root? -/
def isSqrt (I J : Ivl) : Bool :=
  decide (0 ≤ J.lo) && decide (0 ≤ J.hi) && decide (J.lo * J.lo ≤ I.lo) && decide (I.hi ≤ J.hi * J.hi)

theorem Has.sqrt {I J : Ivl} {x : ℝ} (hx : I.Has x) (h : I.isSqrt J = true) : J.Has (Real.sqrt x) := by
  simp only [isSqrt, Bool.and_eq_true, decide_eq_true_eq] at h
  obtain ⟨⟨⟨h1, h2⟩, h3⟩, h4⟩ := h
  constructor
  · refine Real.le_sqrt_of_sq_le ?_
    rw [sq]
    exact le_trans (by exact_mod_cast h3) hx.1
  · refine Real.sqrt_le_iff.2 ⟨by exact_mod_cast h2, ?_⟩
    rw [sq]
    exact le_trans hx.2 (by exact_mod_cast h4)

/-- Taylor polynomial of the sine: `∑ (-1)ᵏ x^(2k+1) / (2k+1)!` for `k < n` -/
def sinPoly (n : ℕ) (x : ℚ) : ℚ :=
  ∑ k ∈ Finset.range n, (-1) ^ k * x ^ (2 * k + 1) / (2 * k + 1).factorial

/-- Taylor polynomial of the cosine -/
def cosPoly (n : ℕ) (x : ℚ) : ℚ :=
  ∑ k ∈ Finset.range n, (-1) ^ k * x ^ (2 * k) / (2 * k).factorial

theorem exp_sum (n : ℕ) (x : ℚ) :
    ∑ m ∈ Finset.range (2 * n), ((x : ℂ) * Complex.I) ^ m / m.factorial =
      ((cosPoly n x : ℝ) : ℂ) + ((sinPoly n x : ℝ) : ℂ) * Complex.I := by
  induction n with
  | zero => simp [cosPoly, sinPoly]
  | succ n ih =>
    rw [show 2 * (n + 1) = 2 * n + 1 + 1 by ring, Finset.sum_range_succ, Finset.sum_range_succ, ih]
    simp only [cosPoly, sinPoly, Finset.sum_range_succ]
    have h1 : Complex.I ^ (2 * n) = (-1) ^ n := by rw [pow_mul, Complex.I_sq]
    have h2 : Complex.I ^ (2 * n + 1) = (-1) ^ n * Complex.I := by rw [pow_succ, h1]
    simp only [mul_pow, h1, h2]
    push_cast
    ring

theorem trig_near {x : ℚ} {n : ℕ} (hx : |x| ≤ n) :
    |Real.sin x - sinPoly n x| ≤ |(x : ℝ)| ^ (2 * n) / (2 * n).factorial * 2 ∧
    |Real.cos x - cosPoly n x| ≤ |(x : ℝ)| ^ (2 * n) / (2 * n).factorial * 2 := by
  have hn : ‖(x : ℂ) * Complex.I‖ = |(x : ℝ)| := by
    rw [norm_mul, Complex.norm_I, mul_one]
    exact Complex.norm_real (x : ℝ)
  have h := Complex.exp_bound' (x := (x : ℂ) * Complex.I) (n := 2 * n) (by
    rw [hn, div_le_iff₀ (by positivity)]
    have : |(x : ℝ)| ≤ n := by exact_mod_cast hx
    push_cast
    linarith)
  rw [hn, exp_sum, show ((x : ℂ) * Complex.I) = ((x : ℝ) : ℂ) * Complex.I by push_cast; rfl,
    Complex.exp_mul_I] at h
  have e : Complex.cos ((x : ℝ) : ℂ) + Complex.sin ((x : ℝ) : ℂ) * Complex.I -
      (((cosPoly n x : ℝ) : ℂ) + ((sinPoly n x : ℝ) : ℂ) * Complex.I) =
      ((Real.cos x - cosPoly n x : ℝ) : ℂ) + ((Real.sin x - sinPoly n x : ℝ) : ℂ) * Complex.I := by
    push_cast; ring
  rw [e] at h
  generalize Real.cos x - cosPoly n x = c at *
  generalize Real.sin x - sinPoly n x = d at *
  constructor
  · refine le_trans ?_ h
    have := Complex.abs_im_le_norm ((c : ℂ) + (d : ℂ) * Complex.I)
    simpa using this
  · refine le_trans ?_ h
    have := Complex.abs_re_le_norm ((c : ℂ) + (d : ℂ) * Complex.I)
    simpa using this

/-- middle -/
def mid (I : Ivl) : ℚ := (I.lo + I.hi) / 2
/-- half the width -/
def rad (I : Ivl) : ℚ := (I.hi - I.lo) / 2

theorem Has.near_mid {I : Ivl} {x : ℝ} (h : I.Has x) : |x - I.mid| ≤ I.rad := by
  obtain ⟨h1, h2⟩ := h
  rw [abs_le]
  constructor <;> simp only [mid, rad] <;> push_cast <;> linarith

/-- bound of the error of the Taylor polynomials with 12 terms, plus the half width -/
def trigErr (I : Ivl) : ℚ := |I.mid| ^ 24 / Nat.factorial 24 * 2 + I.rad

/-- sine -/
def sin (I : Ivl) : Ivl := ⟨sinPoly 12 I.mid - I.trigErr, sinPoly 12 I.mid + I.trigErr⟩
/-- cosine -/
def cos (I : Ivl) : Ivl := ⟨cosPoly 12 I.mid - I.trigErr, cosPoly 12 I.mid + I.trigErr⟩

theorem Has.sin {I : Ivl} {x : ℝ} (h : I.Has x) (hm : |I.mid| ≤ 12) : I.sin.Has (Real.sin x) := by
  have h1 := (trig_near (x := I.mid) (n := 12) (by exact_mod_cast hm)).1
  have h2 := (Real.abs_sin_sub_sin_le x I.mid).trans h.near_mid
  rw [abs_le] at h1 h2
  constructor <;> simp only [Ivl.sin, trigErr] <;> push_cast <;> linarith [h1.1, h1.2, h2.1, h2.2]

theorem Has.cos {I : Ivl} {x : ℝ} (h : I.Has x) (hm : |I.mid| ≤ 12) : I.cos.Has (Real.cos x) := by
  have h1 := (trig_near (x := I.mid) (n := 12) (by exact_mod_cast hm)).2
  have h2 := (Real.abs_cos_sub_cos_le x I.mid).trans h.near_mid
  rw [abs_le] at h1 h2
  constructor <;> simp only [Ivl.cos, trigErr] <;> push_cast <;> linarith [h1.1, h1.2, h2.1, h2.2]

/-- `EXPECT_NEAR(x, expected, tolerance)` -/
def near (expected tolerance : ℚ) : Ivl := ⟨expected - tolerance, expected + tolerance⟩

theorem has_near {expected tolerance : ℚ} {x : ℝ} :
    (near expected tolerance).Has x ↔ |x - expected| ≤ tolerance := by
  rw [abs_le]
  unfold Has near
  push_cast
  constructor <;> rintro ⟨h1, h2⟩ <;> constructor <;> linarith

end Ivl

end Mot.Checks
