import Verif.Proofs.FloatUt
/-!
# Rounded sums of products, in any order
-/

namespace Mot

open Spec

/-- unit roundoff of `float` -/
abbrev u24 : ℚ := 1 / 2 ^ 24

theorem pow_u24 {m : ℕ} (hm : m ≤ 2 ^ 14) : (1 + u24) ^ m ≤ 1 + 1001 / 1000 * (m * u24) := by
  induction m with
  | zero => simp
  | succ m ih =>
    have h1 := ih (by omega)
    have hm' : (m : ℚ) * u24 ≤ 1 / 1024 := by
      have : (m : ℚ) ≤ 16384 := by exact_mod_cast (by omega : m ≤ 16384)
      unfold u24
      norm_num
      linarith
    have h0 : (0 : ℚ) < u24 := by norm_num
    rw [pow_succ]
    push_cast
    generalize (1 + u24) ^ m = g at *
    generalize u24 = u at *
    refine (mul_le_mul_of_nonneg_right h1 (by linarith)).trans ?_
    have := mul_le_mul_of_nonneg_right hm' h0.le
    nlinarith

/-- the number, 0 if it is not finite -/
def FP.val : FP → ℚ
  | .fin q => q
  | _ => 0

theorem sum_abs_nonneg (l : List ℚ) : 0 ≤ (l.map (|·|)).sum :=
  List.sum_nonneg fun _ h => by
    obtain ⟨_, -, rfl⟩ := List.mem_map.1 h
    exact abs_nonneg _

theorem abs_sum_le (l : List ℚ) : |l.sum| ≤ (l.map (|·|)).sum := by
  induction l with
  | nil => simp
  | cons a l ih =>
    rw [List.sum_cons, List.map_cons, List.sum_cons]
    exact (abs_add_le _ _).trans (by linarith)

theorem SumsTo.length_pos {f : Fmt} {l : List FP} {x : FP} (h : SumsTo f l x) : 0 < l.length := by
  induction h with
  | one a => simp
  | add h1 h2 ih1 ih2 => rw [List.length_append]; omega
  | perm hp h ih => rwa [← hp.length_eq]

/-- error of a rounded sum of finite numbers -/
theorem SumsTo.fin {l : List FP} {x : FP} (h : SumsTo binary32 l x) (hl : ∀ a ∈ l, a = .fin a.val)
    (hN : l.length ≤ 2 ^ 14) (hS : ((l.map FP.val).map (|·|)).sum ≤ 2 ^ 120) :
    ∃ q, x = .fin q ∧ |q - (l.map FP.val).sum| ≤
      ((1 + u24) ^ (l.length - 1) - 1) * ((l.map FP.val).map (|·|)).sum +
        (l.length - 1) * ((1 + u24) ^ (l.length - 1) / 2 ^ 150) := by
  induction h with
  | one a =>
    have := hl a (by simp)
    exact ⟨a.val, this, by simp⟩
  | @add l r a b h1 h2 ih1 ih2 =>
    have p1 := h1.length_pos
    have p2 := h2.length_pos
    rw [List.length_append] at hN
    rw [List.map_append, List.map_append, List.sum_append] at hS
    have s1 := sum_abs_nonneg (l.map FP.val)
    have s2 := sum_abs_nonneg (r.map FP.val)
    obtain ⟨p, rfl, e1⟩ := ih1 (fun a ha => hl a (List.mem_append_left _ ha)) (by omega) (by linarith)
    obtain ⟨q, rfl, e2⟩ := ih2 (fun a ha => hl a (List.mem_append_right _ ha)) (by omega) (by linarith)
    have t1 := abs_sum_le (l.map FP.val)
    have t2 := abs_sum_le (r.map FP.val)
    rw [List.map_append, List.map_append, List.sum_append, List.sum_append, List.length_append]
    generalize (l.map FP.val).sum = P at *
    generalize (r.map FP.val).sum = Q at *
    generalize ((l.map FP.val).map (|·|)).sum = S at *
    generalize ((r.map FP.val).map (|·|)).sum = T at *
    obtain ⟨i, hi⟩ : ∃ i, l.length = i + 1 := ⟨l.length - 1, by omega⟩
    obtain ⟨j, hj⟩ : ∃ j, r.length = j + 1 := ⟨r.length - 1, by omega⟩
    rw [hi] at e1 hN ⊢
    rw [hj] at e2 hN ⊢
    rw [Nat.add_sub_cancel] at e1 e2
    rw [show i + 1 + (j + 1) - 1 = i + j + 1 by omega]
    push_cast at e1 e2 ⊢
    -- both sums with the larger power
    set g := (1 + u24) ^ (i + j) with hg
    have hu : (1 : ℚ) ≤ 1 + u24 := by norm_num
    have hgi : (1 + u24) ^ i ≤ g := pow_le_pow_right₀ hu (by omega)
    have hgj : (1 + u24) ^ j ≤ g := pow_le_pow_right₀ hu (by omega)
    have hg1 : 1 ≤ g := one_le_pow₀ hu
    have hgb : g ≤ 2 := by
      refine (pow_u24 (m := i + j) (by omega)).trans ?_
      have : ((i + j : ℕ) : ℚ) ≤ 16384 := by exact_mod_cast (by omega : i + j ≤ 16384)
      unfold u24
      norm_num only
      linarith
    have f1 : |p - P| ≤ (g - 1) * S + i * (g / 2 ^ 150) := by
      refine e1.trans (add_le_add (mul_le_mul_of_nonneg_right (sub_le_sub_right hgi 1) s1) ?_)
      rw [add_sub_cancel_right]
      exact mul_le_mul_of_nonneg_left (div_le_div_of_nonneg_right hgi (by positivity)) (by positivity)
    have f2 : |q - Q| ≤ (g - 1) * T + j * (g / 2 ^ 150) := by
      refine e2.trans (add_le_add (mul_le_mul_of_nonneg_right (sub_le_sub_right hgj 1) s2) ?_)
      rw [add_sub_cancel_right]
      exact mul_le_mul_of_nonneg_left (div_le_div_of_nonneg_right hgj (by positivity)) (by positivity)
    have hpq : |p + q - (P + Q)| ≤ (g - 1) * (S + T) + (i + j) * (g / 2 ^ 150) := by
      rw [show p + q - (P + Q) = (p - P) + (q - Q) by ring]
      exact (abs_add_le _ _).trans (by linarith)
    have hPQ : |P + Q| ≤ S + T := (abs_add_le _ _).trans (by linarith)
    have hsum : |p + q| ≤ g * (S + T) + (i + j) * (g / 2 ^ 150) := by
      have := abs_sub_abs_le_abs_sub (p + q) (P + Q)
      linarith
    have hij : (i : ℚ) + j ≤ 2 ^ 14 := by
      have : i + j ≤ 2 ^ 14 := by omega
      exact_mod_cast this
    have hsm : ((i : ℚ) + j) * (g / 2 ^ 150) ≤ 2 ^ 14 * (2 / 2 ^ 150) :=
      mul_le_mul hij (by linarith) (by positivity) (by positivity)
    have hfin : |p + q| ≤ 2 ^ 127 := by
      refine hsum.trans ?_
      have : g * (S + T) ≤ 2 * 2 ^ 120 := mul_le_mul hgb hS (by linarith) (by norm_num)
      norm_num at this hsm ⊢
      linarith
    refine ⟨binary32.round (p + q), b32_ofRat hfin, ?_⟩
    have c := b32_std (p + q)
    have c2 := abs_sub_le (binary32.round (p + q)) (p + q) (P + Q)
    have c3 : |p + q| / 2 ^ 24 ≤ u24 * (g * (S + T) + (i + j) * (g / 2 ^ 150)) := by
      rw [show |p + q| / 2 ^ 24 = u24 * |p + q| by unfold u24; ring]
      exact mul_le_mul_of_nonneg_left hsum (by norm_num)
    have c4 : (1 : ℚ) / 2 ^ 150 ≤ (1 + u24) * g / 2 ^ 150 := by
      rw [div_le_div_iff_of_pos_right (by positivity)]
      nlinarith
    rw [show (1 + u24) ^ (i + j + 1) = (1 + u24) * g by rw [hg, pow_succ, mul_comm]]
    clear_value g
    have e : ((1 + u24) * g - 1) * (S + T) + (i + 1 + (j + 1) - 1) * ((1 + u24) * g / 2 ^ 150) =
      ((g - 1) * (S + T) + (i + j) * (g / 2 ^ 150)) + u24 * (g * (S + T) + (i + j) * (g / 2 ^ 150)) +
        (1 + u24) * g / 2 ^ 150 := by ring
    rw [e]
    linarith
  | @perm l r a hp h ih =>
    have hs1 : ((l.map FP.val).map (|·|)).sum = ((r.map FP.val).map (|·|)).sum :=
      ((hp.map _).map _).sum_eq
    obtain ⟨q, hq, e⟩ := ih (fun a ha => hl a (hp.subset ha)) (by rwa [hp.length_eq]) (by rwa [hs1])
    refine ⟨q, hq, ?_⟩
    rwa [hs1, (hp.map FP.val).sum_eq, hp.length_eq] at e

/-! ### Sums of approximated terms -/

/-- the computed term `x` is finite and approximates `t` -/
def Term (a b : ℚ) (x : FP) (t : ℚ) : Prop := ∃ q, x = .fin q ∧ |q - t| ≤ a * |t| + b

theorem terms_sum {a b : ℚ} {l : List FP} {ts : List ℚ} (h : List.Forall₂ (Term a b) l ts) :
    (∀ x ∈ l, x = .fin x.val) ∧
    |(l.map FP.val).sum - ts.sum| ≤ a * (ts.map (|·|)).sum + l.length * b ∧
    ((l.map FP.val).map (|·|)).sum ≤ (1 + a) * (ts.map (|·|)).sum + l.length * b := by
  induction h with
  | nil => simp
  | @cons x t l ts hx h ih =>
    obtain ⟨q, rfl, hq⟩ := hx
    obtain ⟨h1, h2, h3⟩ := ih
    refine ⟨?_, ?_, ?_⟩
    · intro x hx
      rcases List.mem_cons.1 hx with rfl | hx
      · rfl
      · exact h1 x hx
    · simp only [List.map_cons, List.sum_cons, List.length_cons, FP.val]
      rw [show q + (l.map FP.val).sum - (t + ts.sum) = (q - t) + ((l.map FP.val).sum - ts.sum) by ring]
      refine (abs_add_le _ _).trans ((add_le_add hq h2).trans (le_of_eq ?_))
      push_cast
      ring
    · simp only [List.map_cons, List.sum_cons, List.length_cons, FP.val]
      have := abs_sub_abs_le_abs_sub q t
      push_cast
      nlinarith

/-- error of a rounded sum of approximated terms -/
theorem SumsTo.terms {a b : ℚ} {l : List FP} {ts : List ℚ} {x : FP} (h : SumsTo binary32 l x)
    (ht : List.Forall₂ (Term a b) l ts) {k : ℕ} (ha : 1 + a ≤ (1 + u24) ^ (k + 1)) (hb : 0 ≤ b)
    (hb' : b ≤ 1) (hN : l.length + k ≤ 2 ^ 14) (hS : (ts.map (|·|)).sum ≤ 2 ^ 110) :
    ∃ q, x = .fin q ∧ |q - ts.sum| ≤
      1001 / 1000 * ((l.length + k) / 2 ^ 24) * (ts.map (|·|)).sum + 2 * l.length * (b + 1 / 2 ^ 150) := by
  obtain ⟨h1, h2, h3⟩ := terms_sum ht
  have hS0 := sum_abs_nonneg ts
  have hu : (1 : ℚ) ≤ 1 + u24 := by norm_num
  have hp := h.length_pos
  have hN' : (l.length : ℚ) ≤ 16384 := by exact_mod_cast (by omega : l.length ≤ 16384)
  have ha1 : 1 + a ≤ 2 := ha.trans ((pow_u24 (by omega)).trans (by
    have : ((k + 1 : ℕ) : ℚ) ≤ 16384 := by exact_mod_cast (by omega : k + 1 ≤ 16384)
    unfold u24
    norm_num only
    linarith))
  have hlb : (l.length : ℚ) * b ≤ 16384 := by nlinarith
  have hb120 : ((l.map FP.val).map (|·|)).sum ≤ 2 ^ 120 := by
    refine h3.trans ?_
    have : (1 + a) * (ts.map (|·|)).sum ≤ 2 * 2 ^ 110 := mul_le_mul ha1 hS hS0 (by norm_num)
    norm_num at this ⊢
    linarith
  obtain ⟨q, rfl, e⟩ := h.fin h1 (by omega) hb120
  refine ⟨q, rfl, ?_⟩
  obtain ⟨j, hj⟩ : ∃ j, l.length = j + 1 := ⟨l.length - 1, by omega⟩
  have hg2 : (1 + u24) ^ j * (1 + a) - 1 ≤ 1001 / 1000 * ((l.length + k) / 2 ^ 24) := by
    have : (1 + u24) ^ j * (1 + a) ≤ (1 + u24) ^ (j + (k + 1)) := by
      rw [pow_add _ j]
      exact mul_le_mul_of_nonneg_left ha (by positivity)
    have h4 := pow_u24 (m := j + (k + 1)) (by omega)
    rw [hj]
    push_cast at h4 ⊢
    unfold u24 at h4 this ⊢
    linarith
  have hg1 : 1 ≤ (1 + u24) ^ j := one_le_pow₀ hu
  have hgb : (1 + u24) ^ j ≤ 2 := by
    refine (pow_u24 (m := j) (by omega)).trans ?_
    have : (j : ℚ) ≤ 16384 := by exact_mod_cast (by omega : j ≤ 16384)
    unfold u24
    norm_num only
    linarith
  rw [show l.length - 1 = j by omega] at e
  generalize (1 + u24) ^ j = g at *
  generalize (ts.map (|·|)).sum = S at *
  generalize ((l.map FP.val).map (|·|)).sum = V at *
  generalize (l.map FP.val).sum = v at *
  have hn1 : (1 : ℚ) ≤ l.length := by exact_mod_cast hp
  generalize (l.length : ℚ) = n at *
  have hn : 0 ≤ n * b := mul_nonneg (by linarith) hb
  have c := abs_sub_le q v ts.sum
  have c1 : (g - 1) * V ≤ (g - 1) * ((1 + a) * S + n * b) :=
    mul_le_mul_of_nonneg_left h3 (by linarith)
  have c2 := mul_le_mul_of_nonneg_right hg2 hS0
  have c3 : g * (n * b) ≤ 2 * (n * b) := mul_le_mul_of_nonneg_right hgb hn
  have c4 : (n - 1) * (g / 2 ^ 150) ≤ n * (2 / 2 ^ 150) :=
    mul_le_mul (by linarith) (div_le_div_of_nonneg_right hgb (by positivity)) (by positivity) (by linarith)
  have e1 : (g - 1) * ((1 + a) * S + n * b) + a * S + n * b = (g * (1 + a) - 1) * S + g * (n * b) := by
    ring
  have e2 : 2 * n * (b + 1 / 2 ^ 150) = 2 * (n * b) + n * (2 / 2 ^ 150) := by ring
  rw [e2]
  linarith

/-! ### Errors counted in roundings -/

/-- `p` approximates `P` with `k` roundings and a small absolute error -/
def Rnd (k : ℕ) (δ p P : ℚ) : Prop := |p - P| ≤ ((1 + u24) ^ k - 1) * |P| + δ

theorem Rnd.exact (P : ℚ) : Rnd 0 0 P P := by simp [Rnd]

theorem Rnd.mono {k : ℕ} {δ ε p P : ℚ} (h : Rnd k δ p P) (hd : δ ≤ ε) : Rnd k ε p P :=
  le_trans h (by linarith)

theorem Rnd.mul {a b : ℕ} {δ ε p q P Q : ℚ} (h : Rnd a δ p P) (h' : Rnd b ε q Q) :
    Rnd (a + b) (δ * (1 + u24) ^ b * |Q| + ε * (1 + u24) ^ a * |P| + δ * ε) (p * q) (P * Q) := by
  unfold Rnd at *
  rw [pow_add]
  generalize (1 + u24) ^ a = A at *
  generalize (1 + u24) ^ b = B at *
  rw [show p * q - P * Q = (p - P) * (q - Q) + (p - P) * Q + P * (q - Q) by ring, abs_mul P Q]
  have h1 := abs_add_le ((p - P) * (q - Q) + (p - P) * Q) (P * (q - Q))
  have h2 := abs_add_le ((p - P) * (q - Q)) ((p - P) * Q)
  rw [abs_mul (p - P), abs_mul (p - P)] at h2
  rw [abs_mul P] at h1
  have h3 := mul_le_mul h h' (abs_nonneg _) ((abs_nonneg _).trans h)
  have h4 := mul_le_mul_of_nonneg_right h (abs_nonneg Q)
  have h5 := mul_le_mul_of_nonneg_left h' (abs_nonneg P)
  refine h1.trans ((add_le_add (h2.trans (add_le_add h3 h4)) h5).trans (le_of_eq ?_))
  ring

theorem Rnd.round {k : ℕ} {δ p P : ℚ} (h : Rnd k δ p P) :
    Rnd (k + 1) (δ * (1 + u24) + 1 / 2 ^ 150) (binary32.round p) P := by
  unfold Rnd at *
  rw [pow_succ]
  generalize (1 + u24) ^ k = A at *
  have c := b32_std p
  have h1 := abs_sub_le (binary32.round p) p P
  have h2 := abs_sub_abs_le_abs_sub p P
  have h3 : |p| / 2 ^ 24 ≤ u24 * (A * |P| + δ) := by
    rw [show |p| / 2 ^ 24 = u24 * |p| by unfold u24; ring]
    exact mul_le_mul_of_nonneg_left (by linarith) (by norm_num)
  have e : (A * (1 + u24) - 1) * |P| + (δ * (1 + u24) + 1 / 2 ^ 150) =
    ((A - 1) * |P| + δ) + u24 * (A * |P| + δ) + 1 / 2 ^ 150 := by ring
  rw [e]
  linarith

theorem Rnd.abs_le {k : ℕ} (hk : k ≤ 2 ^ 14) {δ p P : ℚ} (h : Rnd k δ p P) : |p| ≤ 2 * |P| + δ := by
  have h1 := abs_sub_abs_le_abs_sub p P
  have h2 : (1 + u24) ^ k ≤ 2 := (pow_u24 hk).trans (by
    have : (k : ℚ) ≤ 16384 := by exact_mod_cast hk
    unfold u24
    norm_num only
    linarith)
  have h3 := mul_le_mul_of_nonneg_right h2 (abs_nonneg P)
  unfold Rnd at h
  linarith

/-- a product of weight and coordinate -/
theorem mean_term {w c : ℚ} (h : |w * c| ≤ 2 ^ 110) :
    Term u24 (1 / 2 ^ 150) (FP.mul binary32 (.fin w) (.fin c)) (w * c) := by
  refine ⟨_, b32_ofRat (h.trans (by norm_num)), ?_⟩
  refine (b32_std _).trans (le_of_eq ?_)
  unfold u24
  ring

/-- a term of the covariance -/
theorem cov_term {w c x c' x' : ℚ} (hw : |w| ≤ 2 ^ 30) (hc : |c| ≤ 2 ^ 30) (hx : |x| ≤ 2 ^ 30)
    (hc' : |c'| ≤ 2 ^ 30) (hx' : |x'| ≤ 2 ^ 30) :
    Term ((1 + u24) ^ 4 - 1) (1 / 2 ^ 80) (FP.mul binary32 (FP.sub binary32 (.fin c) (.fin x))
      (FP.mul binary32 (.fin w) (FP.sub binary32 (.fin c') (.fin x')))) ((c - x) * (w * (c' - x'))) := by
  have hy : |c - x| ≤ 2 ^ 31 := (abs_sub _ _).trans (by norm_num at *; linarith)
  have hy' : |c' - x'| ≤ 2 ^ 31 := (abs_sub _ _).trans (by norm_num at *; linarith)
  have e1 : FP.sub binary32 (.fin c) (.fin x) = .fin (binary32.round (c - x)) :=
    b32_ofRat (hy.trans (by norm_num))
  have e2 : FP.sub binary32 (.fin c') (.fin x') = .fin (binary32.round (c' - x')) :=
    b32_ofRat (hy'.trans (by norm_num))
  have r1 := (Rnd.exact (c - x)).round.mono (ε := 1 / 2 ^ 150) (by norm_num)
  have r2 := (Rnd.exact (c' - x')).round.mono (ε := 1 / 2 ^ 150) (by norm_num)
  rw [e1, e2]
  generalize c - x = Y at *
  generalize c' - x' = Y' at *
  have r3 := (Rnd.exact w).mul r2
  have r3' := r3.mono (ε := 1 / 2 ^ 120) (by
    norm_num at hw ⊢
    linarith)
  have hwY : |w * Y'| ≤ 2 ^ 61 := by
    rw [abs_mul]
    exact (mul_le_mul hw hy' (abs_nonneg _) (by norm_num)).trans (by norm_num)
  have b3 : |w * binary32.round Y'| ≤ 2 ^ 63 := by
    have := r3'.abs_le (by norm_num)
    norm_num at this hwY ⊢
    linarith
  have e3 : FP.mul binary32 (.fin w) (.fin (binary32.round Y')) =
    .fin (binary32.round (w * binary32.round Y')) := b32_ofRat (b3.trans (by norm_num))
  have r4 := r3'.round.mono (ε := 1 / 2 ^ 118) (by norm_num)
  rw [e3]
  have r5 := r1.mul r4
  have r5' := r5.mono (ε := 1 / 2 ^ 85) (by
    norm_num at hwY hy ⊢
    linarith)
  have hYw : |Y * (w * Y')| ≤ 2 ^ 92 := by
    rw [abs_mul]
    exact (mul_le_mul hy hwY (abs_nonneg _) (by norm_num)).trans (by norm_num)
  have b5 := r5'.abs_le (by norm_num)
  have r6 := r5'.round.mono (ε := 1 / 2 ^ 80) (by norm_num)
  refine ⟨_, b32_ofRat (b5.trans ?_), r6⟩
  norm_num at hYw ⊢
  linarith

/-! ### Signs -/

/-- not negative, or not a number -/
def FP.NotNeg (x : FP) : Prop := x ≠ .inf true ∧ ∀ q, x = .fin q → 0 ≤ q

theorem notNeg_ofRat {f : Fmt} {x : ℚ} (h : 0 ≤ x) : (FP.ofRat f x).NotNeg := by
  unfold FP.ofRat
  split
  · exact ⟨by simp, fun q hq => by cases hq; exact f.round_nonneg h⟩
  · rw [decide_eq_false (not_lt.2 h)]
    exact ⟨by simp, by simp⟩

theorem notNeg_add {f : Fmt} {a b : FP} (ha : a.NotNeg) (hb : b.NotNeg) : (FP.add f a b).NotNeg := by
  obtain ⟨a1, a2⟩ := ha
  obtain ⟨b1, b2⟩ := hb
  cases a with
  | nan => exact ⟨by simp [FP.add], by simp [FP.add]⟩
  | inf s =>
    cases s with
    | true => exact absurd rfl a1
    | false =>
      cases b with
      | nan => exact ⟨by simp [FP.add], by simp [FP.add]⟩
      | inf t =>
        cases t with
        | true => exact absurd rfl b1
        | false => exact ⟨by simp [FP.add], by simp [FP.add]⟩
      | fin b => exact ⟨by simp [FP.add], by simp [FP.add]⟩
  | fin a =>
    cases b with
    | nan => exact ⟨by simp [FP.add], by simp [FP.add]⟩
    | inf t =>
      cases t with
      | true => exact absurd rfl b1
      | false => exact ⟨by simp [FP.add], by simp [FP.add]⟩
    | fin b => exact notNeg_ofRat (add_nonneg (a2 a rfl) (b2 b rfl))

theorem SumsTo.notNeg {f : Fmt} {l : List FP} {x : FP} (h : SumsTo f l x)
    (hl : ∀ a ∈ l, a.NotNeg) : x.NotNeg := by
  induction h with
  | one a => exact hl a (by simp)
  | add h1 h2 ih1 ih2 =>
    exact notNeg_add (ih1 fun a ha => hl a (List.mem_append_left _ ha))
      (ih2 fun a ha => hl a (List.mem_append_right _ ha))
  | perm hp h ih => exact ih fun a ha => hl a (hp.subset ha)

theorem notNeg_conv {f : Fmt} {x : FP} (h : x.NotNeg) : (FP.conv f x).NotNeg := by
  cases x with
  | nan => exact ⟨by simp [FP.conv], by simp [FP.conv]⟩
  | inf s => exact h
  | fin q => exact notNeg_ofRat (h.2 q rfl)

theorem notNeg_mul {f : Fmt} {x : FP} (h : x.NotNeg) : (FP.mul f (.fin (1 / 2)) x).NotNeg := by
  cases x with
  | nan => exact ⟨by simp [FP.mul], by simp [FP.mul]⟩
  | inf s =>
    cases s with
    | true => exact absurd rfl h.1
    | false =>
      have : FP.mul f (.fin (1 / 2)) (.inf false) = .inf false := by
        show (if (1 / 2 : ℚ) = 0 then FP.nan else FP.inf (false != decide ((1 / 2 : ℚ) < 0))) = _
        norm_num
      rw [this]
      exact h
  | fin q => exact notNeg_ofRat (mul_nonneg (by norm_num) (h.2 q rfl))

/-- a term of a variance -/
theorem notNeg_square {w : ℚ} (hw : 0 ≤ w) (y : FP) :
    (FP.mul binary32 y (FP.mul binary32 (.fin w) y)).NotNeg := by
  cases y with
  | nan => exact ⟨by simp [FP.mul], by simp [FP.mul]⟩
  | inf s =>
    by_cases h0 : w = 0
    · subst h0
      have : FP.mul binary32 (.fin 0) (.inf s) = .nan := by
        show (if (0 : ℚ) = 0 then FP.nan else FP.inf (s != decide ((0 : ℚ) < 0))) = _
        exact if_pos rfl
      rw [this]
      exact ⟨by simp [FP.mul], by simp [FP.mul]⟩
    · have : FP.mul binary32 (.fin w) (.inf s) = .inf s := by
        show (if w = 0 then FP.nan else FP.inf (s != decide (w < 0))) = _
        rw [if_neg h0, decide_eq_false (not_lt.2 hw)]
        simp
      rw [this]
      exact ⟨by simp [FP.mul], by simp [FP.mul]⟩
  | fin y =>
    have h : FP.mul binary32 (.fin w) (.fin y) = FP.ofRat binary32 (w * y) := rfl
    rw [h]
    unfold FP.ofRat
    split
    · refine notNeg_ofRat ?_
      rcases le_total 0 y with hy | hy
      · exact mul_nonneg hy (binary32.round_nonneg (mul_nonneg hw hy))
      · have h1 := binary32.round_nonneg (mul_nonneg hw (neg_nonneg.2 hy))
        rw [mul_neg, Fmt.round_neg] at h1
        nlinarith
    · rename_i hov
      have hy0 : y ≠ 0 := by
        rintro rfl
        rw [mul_zero, Fmt.round_zero] at hov
        exact hov (by rw [abs_zero, b32_emax]; norm_num)
      have hw0 : 0 < w := by
        refine lt_of_le_of_ne hw ?_
        rintro rfl
        rw [zero_mul, Fmt.round_zero] at hov
        exact hov (by rw [abs_zero, b32_emax]; norm_num)
      have e : decide (w * y < 0) = decide (y < 0) := by
        rw [decide_eq_decide, mul_neg_iff]
        constructor
        · rintro (⟨_, h⟩ | ⟨h, _⟩)
          · exact h
          · linarith
        · exact fun h => .inl ⟨hw0, h⟩
      have : FP.mul binary32 (.fin y) (.inf (decide (w * y < 0))) = .inf false := by
        show (if y = 0 then FP.nan else FP.inf (decide (w * y < 0) != decide (y < 0))) = _
        rw [if_neg hy0, e]
        simp
      rw [this]
      exact ⟨by simp, by simp⟩

end Mot
