import Verif.Proofs.FloatUt
import Verif.Props.FloatCtra
/-!
# Weights and scale of the sigma points as they are computed (C91)
-/

namespace Mot.Props

open Mot Spec

section
variable {n : ℕ} {a k : ℚ}

/-- C91: the computed lambda plus n is α²(n + κ) up to (5·|α²(n + κ)| + n)·2⁻²⁴. -/
theorem C91_lambda (hn : n < 2 ^ 20) (ha : |a| ≤ 2 ^ 20) (hk : |k| ≤ 2 ^ 20) :
    ∃ L : ℚ, lambdaF n (.fin a) (.fin k) = .fin L ∧
      |n + L - a * a * (n + k)| ≤ (5 * |a * a * (n + k)| + n) / 2 ^ 24 + 1 / 2 ^ 79 := by
  obtain ⟨p, hp, h1, h2⟩ := lambda_prod_err hn ha hk
  have hn' : (n : ℚ) ≤ 2 ^ 20 := by exact_mod_cast hn.le
  have hn0 : (0 : ℚ) ≤ n := by positivity
  have h3 := abs_sub_abs_le_abs_sub p (a * a * (n + k))
  have h4 := abs_sub p n
  rw [abs_of_nonneg hn0] at h4
  have hb : |p - n| ≤ 2 ^ 127 := by
    have : (2 : ℚ) ^ 20 ≤ 1048576 := by norm_num
    have h5 := hn'.trans this
    generalize |a * a * (n + k : ℚ)| = P at *
    norm_num at h1 h2 h3 h4 ⊢
    linarith
  refine ⟨binary32.round (p - n), ?_, ?_⟩
  · unfold lambdaF
    rw [hp, intF_nat (hn.trans (by norm_num))]
    exact b32_ofRat hb
  · have c := b32_std (p - n)
    have h5 := abs_add_le (binary32.round (p - n) - (p - n)) (p - a * a * (n + k))
    rw [show binary32.round (p - n) - (p - n) + (p - a * a * (n + k)) =
      n + binary32.round (p - n) - a * a * (n + k) by ring] at h5
    have h6 := abs_nonneg (a * a * (n + k : ℚ))
    generalize |a * a * (n + k : ℚ)| = P at *
    generalize |(n : ℚ) + binary32.round (p - n) - a * a * (n + k)| = z at *
    norm_num at h1 h3 h4 h5 h6 c ⊢
    linarith

/-- C91: with α = 1 and a small whole number κ lambda is exactly κ; in particular for
`default_unscented_transform`. -/
theorem C91_lambda_one (hn : n < 2 ^ 20) {k : ℕ} (hk : k < 2 ^ 20) :
    lambdaF n (.fin 1) (.fin k) = .fin k := by
  have h1 : FP.mul binary32 (.fin 1) (.fin 1) = .fin 1 := by decide +kernel
  have e : ∀ j : ℕ, j < 2 ^ 24 → FP.ofRat binary32 j = .fin j := fun j hj => by
    have := intF_nat hj
    unfold intF at this
    rwa [Int.cast_natCast] at this
  unfold lambdaF
  rw [h1, intF_nat (hn.trans (by norm_num))]
  have h2 : FP.add binary32 (.fin n) (.fin k) = .fin ((n + k : ℕ) : ℚ) := by
    rw [← e (n + k) (by omega)]
    show FP.ofRat binary32 (n + k) = _
    push_cast
    rfl
  rw [h2]
  have h3 : FP.mul binary32 (.fin 1) (.fin ((n + k : ℕ) : ℚ)) = .fin ((n + k : ℕ) : ℚ) := by
    show FP.ofRat binary32 (1 * _) = _
    rw [one_mul, e (n + k) (by omega)]
  rw [h3]
  show FP.ofRat binary32 (((n + k : ℕ) : ℚ) - n) = _
  rw [show ((n + k : ℕ) : ℚ) - n = k by push_cast; ring, e k (by omega)]

/-- C91: when α²(n + κ) is at most n·2⁻²⁶, lambda is rounded to -n, the divisor is zero and all
weights are infinite. -/
theorem C91_breakdown (hn : 1 ≤ n) (hn' : n < 2 ^ 20) (ha : |a| ≤ 2 ^ 50) (hk : |k| ≤ 2 ^ 50)
    (h0 : 0 ≤ n + k) (hP : a * a * (n + k) ≤ n / 2 ^ 26) {b : ℚ} (hb : |b| ≤ 2 ^ 100) :
    lambdaF n (.fin a) (.fin k) = .fin (-n) ∧
    weightsF n (.fin a) (.fin b) (lambdaF n (.fin a) (.fin k)) =
      (.inf true :: List.replicate (2 * n) (.inf false),
       .inf true :: List.replicate (2 * n) (.inf false)) := by
  obtain ⟨p, hp, p0, p1⟩ := lambda_prod hn' ha hk h0 (hP.trans (by
    have : (n : ℚ) ≤ 1048576 := by exact_mod_cast hn'.le
    norm_num
    linarith))
  have hn1 : (1 : ℚ) ≤ n := by exact_mod_cast hn
  have hf := isFloat_nat (hn'.trans (show 2 ^ 20 < 2 ^ 24 by norm_num))
  have hi : intF n = .fin n := intF_nat (hn'.trans (by norm_num))
  have hl : lambdaF n (.fin a) (.fin k) = .fin (-n) := by
    unfold lambdaF
    rw [hp, hi]
    show FP.ofRat binary32 (p - n) = _
    rw [show p - n = -n + p by ring]
    refine hf.neg.absorb ?_
    rw [abs_of_nonneg p0, abs_neg, abs_of_pos (by linarith)]
    norm_num at p1 hP ⊢
    linarith
  refine ⟨hl, ?_⟩
  rw [hl]
  have hs : scaleF n (.fin (-n)) = .fin 0 := by
    unfold scaleF
    rw [hi]
    show FP.ofRat binary32 (n + -n) = _
    rw [add_neg_cancel]
    decide +kernel
  have hm : wm0F n (.fin (-n)) = .inf true := by
    unfold wm0F
    rw [hs]
    show (if (0 : ℚ) = 0 then (if (-n : ℚ) = 0 then FP.nan else .inf (decide ((-n : ℚ) < 0)))
      else FP.ofRat binary32 (-n / 0)) = _
    rw [if_pos rfl, if_neg (by linarith), decide_eq_true (by linarith)]
  have hw : wiF n (.fin (-n)) = .inf false := by
    unfold wiF
    rw [hs]
    decide +kernel
  have haa : |a * a| ≤ 2 ^ 100 := by
    rw [abs_mul]
    exact (mul_le_mul ha ha (abs_nonneg _) (by norm_num)).trans (by norm_num)
  have hc : wc0F n (.fin a) (.fin b) (.fin (-n)) = .inf true := by
    have c1 := b32_std (a * a)
    have c2 := abs_sub_abs_le_abs_sub (binary32.round (a * a)) (a * a)
    have c3 := abs_sub 1 (binary32.round (a * a))
    have c4 := b32_std (1 - binary32.round (a * a))
    have c5 := abs_sub_abs_le_abs_sub (binary32.round (1 - binary32.round (a * a)))
      (1 - binary32.round (a * a))
    have c6 := abs_add_le (binary32.round (1 - binary32.round (a * a))) b
    rw [abs_one] at c3
    have e1 : FP.mul binary32 (.fin a) (.fin a) = .fin (binary32.round (a * a)) :=
      b32_ofRat (haa.trans (by norm_num))
    have e2 : FP.sub binary32 (.fin 1) (.fin (binary32.round (a * a))) =
        .fin (binary32.round (1 - binary32.round (a * a))) := b32_ofRat (by
      norm_num at c1 c2 c3 haa ⊢
      linarith)
    have e3 : FP.add binary32 (.fin (binary32.round (1 - binary32.round (a * a)))) (.fin b) =
        .fin (binary32.round (binary32.round (1 - binary32.round (a * a)) + b)) := b32_ofRat (by
      norm_num at c1 c2 c3 c4 c5 c6 haa hb ⊢
      linarith)
    unfold wc0F
    unfold wm0F at hm
    rw [hm, e1, e2, e3]
    rfl
  unfold weightsF
  rw [hm, hw, hc]

/-- C91: then no entry of the predicted mean and of the predicted covariance is a finite number,
whatever the points and in whatever order the sums are taken. -/
theorem C91_breakdown_prediction (hn : 1 ≤ n) (hn' : n < 2 ^ 20) (ha : |a| ≤ 2 ^ 50)
    (hk : |k| ≤ 2 ^ 50) (h0 : 0 ≤ n + k) (hP : a * a * (n + k) ≤ n / 2 ^ 26) {b : ℚ} (hb : |b| ≤ 2 ^ 100)
    {wm wc : List FP}
    (hw : weightsF n (.fin a) (.fin b) (lambdaF n (.fin a) (.fin k)) = (wm, wc))
    {cj ck : List FP} (hcj : cj.length = 2 * n + 1) (hck : ck.length = 2 * n + 1) {xj xk p : FP}
    (hj : IsMeanF wm cj xj) (hk' : IsMeanF wm ck xk) (hp : IsCovF wc cj ck xj xk p) (q : ℚ) :
    xj ≠ .fin q ∧ p ≠ .fin q := by
  obtain ⟨-, h⟩ := C91_breakdown hn hn' ha hk h0 hP hb
  rw [hw] at h
  obtain ⟨rfl, rfl⟩ := Prod.mk.inj h
  have hx : ∀ {c x}, c.length = 2 * n + 1 →
      IsMeanF (.inf true :: List.replicate (2 * n) (.inf false)) c x → x.NotFin := by
    intro c x hc hx
    obtain _ | ⟨c0, c⟩ := c
    · simp at hc
    · exact SumsTo.notFin hx ⟨_, List.mem_cons_self, notFin_mul (.inl (notFin_inf _))⟩
  have hj' := hx hcj hj
  refine ⟨hj' q, ?_⟩
  obtain _ | ⟨c0, cj⟩ := cj
  · simp at hcj
  obtain _ | ⟨d0, ck⟩ := ck
  · simp at hck
  exact SumsTo.notFin hp ⟨_, List.mem_cons_self, notFin_mul (.inl (notFin_sub hj'))⟩ q

/-- C91: otherwise the weights of the mean are finite and sum to 1 up to
4·2⁻²⁴·(|λ| + n)/|n + λ|. -/
theorem C91_sum (hn : n < 2 ^ 20) {L : ℚ} (hL : |L| ≤ 2 ^ 60) (hD : 1 / 2 ^ 60 ≤ |n + L|) (α β : FP) :
    ∃ w0 w : ℚ, (weightsF n α β (.fin L)).1 = .fin w0 :: List.replicate (2 * n) (.fin w) ∧
      |w0 + 2 * n * w - 1| ≤ 4 / 2 ^ 24 * ((|L| + n) / |n + L|) := by
  obtain ⟨d, hs, hd⟩ := scale_fin hn hL hD
  have d1 := scale_size hd
  have d2 := scale_size' hd
  have hn' : (n : ℚ) ≤ 1048576 := by exact_mod_cast hn.le
  have hn0 : (0 : ℚ) ≤ n := by positivity
  have hDb : |(n : ℚ) + L| ≤ |L| + n := by
    have := abs_add_le (n : ℚ) L
    rwa [abs_of_nonneg hn0, add_comm (n : ℚ) |L|] at this
  have hDp : 0 < |(n : ℚ) + L| := lt_of_lt_of_le (by norm_num) hD
  have hlo : 1 / 2 ^ 61 ≤ |d| := by
    norm_num at hD ⊢
    linarith
  have hhi : |d| ≤ 2 ^ 62 := by
    norm_num at hL ⊢
    linarith
  obtain ⟨q1, q2⟩ := quot_fin hlo hL
  obtain ⟨w, w1, w2⟩ := wi_fin hs hlo hhi
  refine ⟨binary32.round (L / d), w, ?_, ?_⟩
  · unfold weightsF wm0F
    rw [hs, q1, w1]
  · set w0 := binary32.round (L / d)
    clear_value w0
    have hmul : |w0 + 2 * n * w - 1| * |d| ≤
        16 / 5 / 2 ^ 24 * (|L| + n) := by
      rw [← abs_mul, show (w0 + 2 * n * w - 1) * d =
        (w0 * d - L) + (n * (2 * w * d - 1) + -(d - (n + L))) by ring]
      have a1 := abs_add_le (w0 * d - L) (n * (2 * w * d - 1) + -(d - (n + L)))
      have a2 := abs_add_le (n * (2 * w * d - 1)) (-(d - (n + L)))
      rw [abs_neg, abs_mul (n : ℚ), abs_of_nonneg hn0] at a2
      have a3 := mul_le_mul_of_nonneg_left w2 hn0
      have a4 := abs_nonneg L
      refine a1.trans ((add_le_add q2 (a2.trans (add_le_add a3 hd))).trans ?_)
      clear a1 a2 a3 q2 hd w2 hn
      generalize |(n : ℚ) + L| = D at *
      generalize |L| = l at *
      generalize |d| = e at *
      norm_num at d2 ⊢
      linarith
    rw [mul_div_assoc', le_div_iff₀ hDp]
    have := mul_le_mul_of_nonneg_left d1 (abs_nonneg (w0 + 2 * n * w - 1))
    rw [mul_left_comm] at this
    generalize |w0 + 2 * n * w - 1| * |(n : ℚ) + L| = z at *
    have a4 := abs_nonneg L
    norm_num at hmul this ⊢
    linarith

/-- C91: the bound is not idle: for α = 0.001 (the nearest `float`) and κ = 0 the weights for a CTRV
state sum to 65/64 and for a CTRA state to 33/32, for α = 0.0005 to 19/16 and 9/8: the mean of points
that all have coordinate 1000 m is off by at least 15 m. -/
theorem C91_sum_example (β : FP) :
    (∃ w0 w : ℚ, (weightsF 5 (.fin (8589935 / 2 ^ 33)) β (lambdaF 5 (.fin (8589935 / 2 ^ 33)) (.fin 0))).1 =
      .fin w0 :: List.replicate 10 (.fin w) ∧ w0 + 10 * w = 65 / 64) ∧
    (∃ w0 w : ℚ, (weightsF 6 (.fin (8589935 / 2 ^ 33)) β (lambdaF 6 (.fin (8589935 / 2 ^ 33)) (.fin 0))).1 =
      .fin w0 :: List.replicate 12 (.fin w) ∧ w0 + 12 * w = 33 / 32) ∧
    (∃ w0 w : ℚ, (weightsF 5 (.fin (8589935 / 2 ^ 34)) β (lambdaF 5 (.fin (8589935 / 2 ^ 34)) (.fin 0))).1 =
      .fin w0 :: List.replicate 10 (.fin w) ∧ w0 + 10 * w = 19 / 16) ∧
    (∃ w0 w : ℚ, (weightsF 6 (.fin (8589935 / 2 ^ 34)) β (lambdaF 6 (.fin (8589935 / 2 ^ 34)) (.fin 0))).1 =
      .fin w0 :: List.replicate 12 (.fin w) ∧ w0 + 12 * w = 9 / 8) := by
  refine ⟨⟨-1048575, 13421773 / 128, ?_, ?_⟩, ⟨-15486645 / 16, 10324441 / 128, ?_, ?_⟩,
    ⟨-13981009 / 4, 11184811 / 32, ?_, ?_⟩, ⟨-4194303, 11184811 / 32, ?_, ?_⟩⟩
  · show _ :: List.replicate 10 _ = _
    congr 1 <;> decide +kernel
  · norm_num
  · show _ :: List.replicate 12 _ = _
    congr 1 <;> decide +kernel
  · norm_num
  · show _ :: List.replicate 10 _ = _
    congr 1 <;> decide +kernel
  · norm_num
  · show _ :: List.replicate 12 _ = _
    congr 1 <;> decide +kernel
  · norm_num

/-- C91: scale and weight of the sigma points fit together whatever lambda is: twice the weight times
the square of the scale is 1 up to 5·2⁻²⁴, so the spread of the points reproduces the covariance. -/
theorem C91_spread (hn : n < 2 ^ 20) {L : ℚ} (hL : |L| ≤ 2 ^ 60) (hD : 1 / 2 ^ 60 ≤ n + L) :
    ∃ r w : ℚ, spreadF n (.fin L) = .fin r ∧ wiF n (.fin L) = .fin w ∧
      |(2 * w * r ^ 2 : ℝ) - 1| ≤ 5 / 2 ^ 24 := by
  have hD0 : 0 ≤ n + L := le_trans (by norm_num) hD
  have hD' : 1 / 2 ^ 60 ≤ |n + L| := by rwa [abs_of_nonneg hD0]
  obtain ⟨d, hs, hd⟩ := scale_fin hn hL hD'
  have d1 := scale_size hd
  have d2 := scale_size' hd
  have hn' : (n : ℚ) ≤ 1048576 := by exact_mod_cast hn.le
  rw [abs_of_nonneg hD0] at d1 d2 hd
  have hdp : 0 < d := by
    have := (abs_le.1 hd).1
    norm_num at this hD
    linarith
  rw [abs_of_pos hdp] at d1 d2
  have hlo : 1 / 2 ^ 61 ≤ d := by
    norm_num at hD ⊢
    linarith
  have hhi : d ≤ 2 ^ 62 := by
    have := le_abs_self L
    norm_num at hL ⊢
    linarith
  obtain ⟨w, w1, w2⟩ := wi_fin hs (by rwa [abs_of_pos hdp]) (by rwa [abs_of_pos hdp])
  refine ⟨binary32.sqrt d, w, ?_, w1, ?_⟩
  · unfold spreadF
    rw [hs]
    exact if_neg (not_lt.2 hdp.le)
  · have c := b32_sqrt_std hdp.le
    set r := binary32.sqrt d
    clear_value r
    have hdr : (0 : ℝ) < d := by exact_mod_cast hdp
    have hq : 0 < √(d : ℝ) := Real.sqrt_pos.2 hdr
    have hql : 1 / 2 ^ 31 ≤ √(d : ℝ) := by
      apply Real.le_sqrt_of_sq_le
      have : ((1 / 2 ^ 61 : ℚ) : ℝ) ≤ d := Rat.cast_le.2 hlo
      push_cast at this
      norm_num at this ⊢
      linarith
    have hsq : √(d : ℝ) ^ 2 = d := Real.sq_sqrt hdr.le
    have c' : |(r : ℝ) - √(d : ℝ)| ≤ 101 / 100 / 2 ^ 24 * √(d : ℝ) := by
      refine c.trans ?_
      norm_num at hql ⊢
      linarith
    have w2' : |2 * (w : ℝ) * d - 1| ≤ 21 / 10 / 2 ^ 24 := by
      have : ((|2 * w * d - 1| : ℚ) : ℝ) ≤ ((21 / 10 / 2 ^ 24 : ℚ) : ℝ) := Rat.cast_le.2 w2
      push_cast at this
      exact this
    -- relative error of the root
    obtain ⟨ε, hε, he⟩ : ∃ ε : ℝ, |ε| ≤ 101 / 100 / 2 ^ 24 ∧ (r : ℝ) = √(d : ℝ) * (1 + ε) := by
      refine ⟨((r : ℝ) - √(d : ℝ)) / √(d : ℝ), ?_, by field_simp; ring⟩
      rw [abs_div, abs_of_pos hq, div_le_iff₀ hq]
      exact c'
    rw [he, mul_pow, hsq, show 2 * (w : ℝ) * (d * (1 + ε) ^ 2) - 1 =
      (2 * w * d - 1) + (2 * w * d - 1) * (2 * ε + ε * ε) + (2 * ε + ε * ε) by ring]
    have hee : |2 * ε + ε * ε| ≤ 203 / 100 / 2 ^ 24 := by
      refine (abs_add_le _ _).trans ?_
      rw [abs_mul 2 ε, abs_mul ε ε, abs_two]
      have := mul_le_mul hε hε (abs_nonneg _) (by norm_num)
      norm_num at hε this ⊢
      linarith
    have a1 := abs_add_le ((2 * (w : ℝ) * d - 1) + (2 * w * d - 1) * (2 * ε + ε * ε)) (2 * ε + ε * ε)
    have a2 := abs_add_le (2 * (w : ℝ) * d - 1) ((2 * w * d - 1) * (2 * ε + ε * ε))
    rw [abs_mul (2 * (w : ℝ) * d - 1)] at a2
    have a3 := mul_le_mul w2' hee (abs_nonneg _) (by norm_num)
    norm_num at a1 a2 a3 w2' hee ⊢
    linarith

/-- C91: α = 10⁻⁴ (the nearest `float`), the lower end of the recommended range, is such a case for
both motion models with κ = 0, 1 or 3 - n -/
example (n : ℕ) (hn : n = 5 ∨ n = 6) (k : ℚ) (hk : k = 0 ∨ k = 1 ∨ k = 3 - n) :
    |(13743895 / 2 ^ 37 : ℚ)| ≤ 2 ^ 50 ∧ |k| ≤ 2 ^ 50 ∧ 0 ≤ n + k ∧
      13743895 / 2 ^ 37 * (13743895 / 2 ^ 37) * (n + k) ≤ n / 2 ^ 26 := by
  rcases hn with rfl | rfl <;> rcases hk with rfl | rfl | rfl <;> norm_num

example : lambdaF 5 (.fin (13743895 / 2 ^ 37)) (.fin 0) = .fin (-5) ∧
    (weightsF 5 (.fin (13743895 / 2 ^ 37)) (.fin 2) (lambdaF 5 (.fin (13743895 / 2 ^ 37)) (.fin 0))).1 =
      .inf true :: List.replicate 10 (.inf false) := by
  obtain ⟨h1, h2⟩ := C91_breakdown (n := 5) (a := 13743895 / 2 ^ 37) (k := 0) (b := 2) (by norm_num)
    (by norm_num) (by norm_num) (by norm_num) (by norm_num) (by norm_num) (by norm_num)
  exact ⟨h1, by rw [show ((5 : ℕ) : ℤ) = 5 from rfl] at h2; rw [h2]⟩

/-- C91: the default parameters (α = 1, β = 2, κ = 1 passed in the order of the call): λ and the
weights are as in exact arithmetic up to rounding -/
example : lambdaF 5 (.fin 1) (.fin 2) = .fin 2 := C91_lambda_one (n := 5) (k := 2) (by norm_num) (by norm_num)

example : (1 : ℚ) / 2 ^ 60 ≤ |((5 : ℕ) : ℚ) + (-5242875 / 1048576)| ∧ |(-5242875 / 1048576 : ℚ)| ≤ 2 ^ 60 := by
  norm_num

end

end Mot.Props
