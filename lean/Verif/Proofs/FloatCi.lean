import Verif.Proofs.FloatFusing
import Verif.Spec.FloatFusing
import Mathlib.Algebra.Order.BigOperators.Ring.Finset
/-!
# Accuracy of fusing for diagonal covariances
-/

namespace Mot

open Spec List

/-! ### Relative errors of positive numbers -/

/-- a little more than the unit roundoff -/
abbrev mu24 : ℚ := 1 / 2 ^ 24 + 1 / 2 ^ 47

/-- `x` is `p > 0` up to `k` relative roundings -/
def Rel (k : ℕ) (x : FP) (p : ℚ) : Prop :=
  0 < p ∧ ∃ q, x = .fin q ∧ p ≤ q * (1 + mu24) ^ k ∧ q ≤ p * (1 + mu24) ^ k

theorem mu_pos (k : ℕ) : 0 < (1 + mu24) ^ k := pow_pos (by norm_num) k

theorem Rel.exact {p : ℚ} (h : 0 < p) : Rel 0 (.fin p) p := ⟨h, p, rfl, by simp, by simp⟩

theorem Rel.mono {k l : ℕ} {x : FP} {p : ℚ} (h : Rel k x p) (hk : k ≤ l) : Rel l x p := by
  obtain ⟨hp, q, rfl, h1, h2⟩ := h
  have hq : 0 < q := by
    by_contra hn
    have := mul_nonpos_of_nonpos_of_nonneg (not_lt.1 hn) (mu_pos k).le
    linarith
  have hm : (1 + mu24) ^ k ≤ (1 + mu24) ^ l := pow_le_pow_right₀ (by norm_num) hk
  exact ⟨hp, q, rfl, h1.trans (mul_le_mul_of_nonneg_left hm hq.le),
    h2.trans (mul_le_mul_of_nonneg_left hm hp.le)⟩

theorem Rel.pos {k : ℕ} {q p : ℚ} (h : Rel k (.fin q) p) : 0 < q := by
  obtain ⟨hp, q', h, h1, h2⟩ := h
  cases h
  by_contra hn
  have := mul_nonpos_of_nonpos_of_nonneg (not_lt.1 hn) (mu_pos k).le
  linarith

/-- one rounding -/
theorem rel_round {x : ℚ} (h : 1 / 2 ^ 100 ≤ x) (h' : x ≤ 2 ^ 120) :
    ∃ q, FP.ofRat binary32 x = .fin q ∧ x ≤ q * (1 + mu24) ∧ q ≤ x * (1 + mu24) := by
  have hx : 0 ≤ x := le_trans (by norm_num) h
  refine ⟨binary32.round x, b32_ofRat (by rw [abs_of_nonneg hx]; exact h'.trans (by norm_num)), ?_⟩
  have e := b32_std x
  rw [abs_of_nonneg hx] at e
  obtain ⟨l, u⟩ := abs_le.1 e
  generalize binary32.round x = y at *
  have hy : x * (1 - 1 / 2 ^ 24 - 1 / 2 ^ 50) ≤ y := by
    norm_num at *
    linarith
  have hy' : y ≤ x * (1 + 1 / 2 ^ 24 + 1 / 2 ^ 50) := by
    norm_num at *
    linarith
  constructor
  · have := mul_le_mul_of_nonneg_right hy (show (0 : ℚ) ≤ 1 + mu24 by norm_num)
    refine le_trans ?_ this
    rw [mul_assoc]
    exact le_mul_of_one_le_right hx (by norm_num)
  · exact hy'.trans (mul_le_mul_of_nonneg_left (by norm_num) hx)

theorem mu_le_two {k : ℕ} (hk : k ≤ 40) : (1 + mu24) ^ k ≤ 2 :=
  (pow_le_pow_right₀ (by norm_num) hk).trans (by norm_num)

/-- rounding a number that is known up to `k` roundings -/
theorem Rel.round {k : ℕ} {x p : ℚ} (hp : 1 / 2 ^ 99 ≤ p) (hp' : p ≤ 2 ^ 119) (hk : k ≤ 40)
    (h1 : p ≤ x * (1 + mu24) ^ k) (h2 : x ≤ p * (1 + mu24) ^ k) : Rel (k + 1) (FP.ofRat binary32 x) p := by
  have h0 : 0 < p := lt_of_lt_of_le (by norm_num) hp
  have hm := mu_le_two hk
  have hm0 := mu_pos k
  have hx0 : 0 < x := by
    by_contra hn
    have := mul_nonpos_of_nonpos_of_nonneg (not_lt.1 hn) hm0.le
    linarith
  have hx : 1 / 2 ^ 100 ≤ x := by
    have := mul_le_mul_of_nonneg_left hm hx0.le
    norm_num at *
    linarith
  have hx' : x ≤ 2 ^ 120 := by
    have := mul_le_mul_of_nonneg_left hm h0.le
    norm_num at *
    linarith
  obtain ⟨q, hq, l, u⟩ := rel_round hx hx'
  refine ⟨h0, q, hq, ?_, ?_⟩
  · rw [pow_succ, mul_comm ((1 + mu24) ^ k), ← mul_assoc]
    exact h1.trans (mul_le_mul_of_nonneg_right l hm0.le)
  · rw [pow_succ, ← mul_assoc]
    exact u.trans (mul_le_mul_of_nonneg_right h2 (by norm_num))

theorem Rel.mul {a b : ℕ} {x y : FP} {p q : ℚ} (h : Rel a x p) (h' : Rel b y q)
    (hp : 1 / 2 ^ 99 ≤ p * q) (hp' : p * q ≤ 2 ^ 119) (hk : a + b ≤ 40) :
    Rel (a + b + 1) (FP.mul binary32 x y) (p * q) := by
  obtain ⟨p0, x', rfl, l, u⟩ := h
  obtain ⟨q0, y', rfl, l', u'⟩ := h'
  have x0 : 0 < x' := Rel.pos (k := a) ⟨p0, _, rfl, l, u⟩
  have y0 : 0 < y' := Rel.pos (k := b) ⟨q0, _, rfl, l', u'⟩
  refine Rel.round (x := x' * y') hp hp' hk ?_ ?_
  · rw [pow_add, mul_mul_mul_comm]
    exact mul_le_mul l l' q0.le (mul_nonneg x0.le (mu_pos a).le)
  · rw [pow_add, mul_mul_mul_comm]
    exact mul_le_mul u u' y0.le (mul_nonneg p0.le (mu_pos a).le)

theorem Rel.add {a : ℕ} {x y : FP} {p q : ℚ} (h : Rel a x p) (h' : Rel a y q)
    (hp : 1 / 2 ^ 99 ≤ p + q) (hp' : p + q ≤ 2 ^ 119) (hk : a ≤ 40) :
    Rel (a + 1) (FP.add binary32 x y) (p + q) := by
  obtain ⟨p0, x', rfl, l, u⟩ := h
  obtain ⟨q0, y', rfl, l', u'⟩ := h'
  refine Rel.round (x := x' + y') hp hp' hk ?_ ?_
  · rw [add_mul]; exact add_le_add l l'
  · rw [add_mul]; exact add_le_add u u'

theorem Rel.recip {p : ℚ} (hp : 1 / 2 ^ 99 ≤ 1 / p) (hp' : 1 / p ≤ 2 ^ 119) :
    Rel 1 (FP.div binary32 (.fin 1) (.fin p)) (1 / p) := by
  have h0 : 0 < 1 / p := lt_of_lt_of_le (by norm_num) hp
  have hne : p ≠ 0 := fun h => by rw [h, div_zero] at h0; exact lt_irrefl _ h0
  have : FP.div binary32 (.fin 1) (.fin p) = FP.ofRat binary32 (1 / p) := if_neg hne
  rw [this]
  exact Rel.round (k := 0) hp hp' (by norm_num) (by simp) (by simp)

/-! ### Determinants -/

theorem prod_range {l : List ℚ} (h : ∀ x ∈ l, 1 / 2 ^ 16 ≤ x ∧ x ≤ 2 ^ 13) :
    1 / 2 ^ (16 * l.length) ≤ l.prod ∧ l.prod ≤ 2 ^ (13 * l.length) := by
  induction l with
  | nil => simp
  | cons a l ih =>
    obtain ⟨h1, h2⟩ := ih fun x hx => h x (mem_cons_of_mem _ hx)
    obtain ⟨a1, a2⟩ := h a mem_cons_self
    have a0 : 0 ≤ a := le_trans (by norm_num) a1
    have p0 : 0 ≤ l.prod := le_trans (by positivity) h1
    rw [prod_cons, length_cons, mul_add, mul_add, mul_one, mul_one, pow_add, pow_add, mul_comm (2 ^ _),
      ← one_div_mul_one_div, mul_comm (2 ^ (13 * l.length))]
    exact ⟨mul_le_mul a1 h1 (by positivity) a0, mul_le_mul a2 h2 p0 (by positivity)⟩

theorem ProdTree.rel {n k : ℕ} (T : ProdTree n) {v : Fin n → FP} {p : Fin n → ℚ}
    (hv : ∀ i, Rel k (v i) (p i)) (hp : ∀ i, 1 / 2 ^ 16 ≤ p i ∧ p i ≤ 2 ^ 13) (hk : k ≤ 2)
    (hT : T.leaves.length ≤ 6) :
    ∃ j, j + 1 = (k + 1) * T.leaves.length ∧ Rel j (T.eval v) (T.leaves.map p).prod := by
  induction T with
  | leaf i => exact ⟨k, by simp [leaves], by simpa [leaves, eval] using hv i⟩
  | node l r hl hr =>
    simp only [leaves, length_append] at hT ⊢
    obtain ⟨j1, e1, r1⟩ := hl (by omega)
    obtain ⟨j2, e2, r2⟩ := hr (by omega)
    have hr := prod_range (l := (l.leaves ++ r.leaves).map p) fun x hx => by
      obtain ⟨i, -, rfl⟩ := mem_map.1 hx
      exact hp i
    rw [length_map, length_append, map_append, prod_append] at hr
    refine ⟨j1 + j2 + 1, by rw [mul_add]; omega, ?_⟩
    rw [map_append, prod_append, eval]
    refine r1.mul r2 (le_trans ?_ hr.1) (hr.2.trans ?_) ?_
    · exact one_div_le_one_div_of_le (by positivity) (pow_le_pow_right₀ (by norm_num) (by omega))
    · exact pow_le_pow_right₀ (by norm_num) (by omega)
    · have : (k + 1) * (l.leaves.length + r.leaves.length) ≤ 3 * 6 := Nat.mul_le_mul (by omega) hT
      rw [mul_add] at this
      omega

/-! ### The weight -/

private theorem weight_numbers {d₁ d₂ dS x₁ x₂ xS : ℚ} (h₂ : 0 ≤ d₂) (hd : d₁ + d₂ ≤ dS)
    (hS : 1 / 2 ^ 99 ≤ dS) (hS' : dS ≤ 2 ^ 100) (e₁ : |x₁ - d₁| ≤ 111 / 10 / 2 ^ 24 * d₁)
    (e₂ : |x₂ - d₂| ≤ 111 / 10 / 2 ^ 24 * d₂) (eS : |xS - dS| ≤ 171 / 10 / 2 ^ 24 * dS)
    (x1 : 0 ≤ x₁) (x2 : 0 ≤ x₂) (x1S : x₁ ≤ xS) (x2S : x₂ ≤ xS) (hf : IsFloat xS) :
    ∃ w, FP.div binary32 (FP.add binary32 (FP.sub binary32 (.fin xS) (.fin x₂)) (.fin x₁))
        (FP.mul binary32 (.fin 2) (.fin xS)) = .fin w ∧ 0 ≤ w ∧ w ≤ 1 ∧
      |w - (dS - d₂ + d₁) / (2 * dS)| ≤ 40 / 2 ^ 24 := by
  have hS0 : 0 < dS := lt_of_lt_of_le (by norm_num) hS
  obtain ⟨eSl, eSu⟩ := abs_le.1 eS
  have xS0 : 99 / 100 * dS ≤ xS := by norm_num at *; linarith
  have xS1 : xS ≤ 101 / 100 * dS := by norm_num at *; linarith
  have tiny : (1 : ℚ) / 2 ^ 150 ≤ dS / 2 ^ 50 := by norm_num at *; linarith
  -- the three roundings
  set y := binary32.round (xS - x₂) with hy
  have y0 : 0 ≤ y := binary32.round_nonneg (sub_nonneg.2 x2S)
  have yS : y ≤ xS := by
    have := binary32.round_mono (by decide) (sub_nonneg.2 x2S) (sub_le_self xS x2)
    rwa [hf.round] at this
  have ey := b32_std (xS - x₂)
  rw [abs_of_nonneg (sub_nonneg.2 x2S), ← hy] at ey
  have f1 : FP.sub binary32 (.fin xS) (.fin x₂) = .fin y := b32_ofRat (by
    rw [abs_of_nonneg (sub_nonneg.2 x2S)]; norm_num at *; linarith)
  set N := binary32.round (y + x₁) with hN
  have yx0 : 0 ≤ y + x₁ := add_nonneg y0 x1
  have N0 : 0 ≤ N := binary32.round_nonneg yx0
  have eN := b32_std (y + x₁)
  rw [abs_of_nonneg yx0, ← hN] at eN
  have f2 : FP.add binary32 (.fin y) (.fin x₁) = .fin N := b32_ofRat (by
    rw [abs_of_nonneg yx0]; norm_num at *; linarith)
  set D := binary32.round (2 * xS) with hD
  have xS2 : 0 ≤ 2 * xS := by linarith
  have eD := b32_std (2 * xS)
  rw [abs_of_nonneg xS2, ← hD] at eD
  have f3 : FP.mul binary32 (.fin 2) (.fin xS) = .fin D := b32_ofRat (by
    rw [abs_of_nonneg xS2]; norm_num at *; linarith)
  have ND : N ≤ D := binary32.round_mono (by decide) yx0 (by linarith)
  obtain ⟨eDl, eDu⟩ := abs_le.1 eD
  have D0 : dS ≤ D := by norm_num at *; linarith
  have Dp : 0 < D := lt_of_lt_of_le hS0 D0
  have q0 : 0 ≤ N / D := div_nonneg N0 Dp.le
  have q1 : N / D ≤ 1 := (div_le_one Dp).2 ND
  have f4 : FP.div binary32 (.fin N) (.fin D) = .fin (binary32.round (N / D)) := by
    refine (if_neg Dp.ne').trans (b32_ofRat ?_)
    rw [abs_of_nonneg q0]; exact q1.trans (by norm_num)
  have ew := b32_std (N / D)
  rw [abs_of_nonneg q0] at ew
  refine ⟨binary32.round (N / D), ?_, binary32.round_nonneg q0, ?_, ?_⟩
  · rw [f1, f2, f3, f4]
  · have := binary32.round_mono (by decide) q0 q1
    rwa [show binary32.round 1 = 1 by decide +kernel] at this
  -- the error
  · have eNs : |N - (dS - d₂ + d₁)| ≤ 315 / 10 / 2 ^ 24 * dS := by
      obtain ⟨l1, u1⟩ := abs_le.1 e₁
      obtain ⟨l2, u2⟩ := abs_le.1 e₂
      obtain ⟨l3, u3⟩ := abs_le.1 ey
      obtain ⟨l4, u4⟩ := abs_le.1 eN
      clear_value N D y
      rw [abs_le]
      norm_num at *
      constructor <;> linarith
    have eDs : |2 * dS - D| ≤ 183 / 10 / 2 ^ 24 * (2 * dS) := by
      clear_value N D y
      rw [abs_le]
      norm_num at *
      constructor <;> linarith
    have split : N / D - (dS - d₂ + d₁) / (2 * dS) =
        (N - (dS - d₂ + d₁)) / (2 * dS) + N / D * ((2 * dS - D) / (2 * dS)) := by
      field_simp
      ring
    have h2S : (0 : ℚ) < 2 * dS := by linarith
    have b1 : |(N - (dS - d₂ + d₁)) / (2 * dS)| ≤ 315 / 20 / 2 ^ 24 := by
      rw [abs_div, abs_of_pos h2S, div_le_iff₀ h2S]
      refine eNs.trans (le_of_eq ?_)
      ring
    have b2 : |N / D * ((2 * dS - D) / (2 * dS))| ≤ 183 / 10 / 2 ^ 24 := by
      rw [abs_mul, abs_of_nonneg q0, abs_div, abs_of_pos h2S]
      have : |2 * dS - D| / (2 * dS) ≤ 183 / 10 / 2 ^ 24 := by
        rw [div_le_iff₀ h2S]; exact eDs
      calc N / D * (|2 * dS - D| / (2 * dS)) ≤ 1 * (|2 * dS - D| / (2 * dS)) :=
            mul_le_mul_of_nonneg_right q1 (by positivity)
        _ ≤ _ := by rw [one_mul]; exact this
    have b3 : |N / D - (dS - d₂ + d₁) / (2 * dS)| ≤ 315 / 20 / 2 ^ 24 + 183 / 10 / 2 ^ 24 := by
      rw [split]
      exact (abs_add_le _ _).trans (add_le_add b1 b2)
    have b4 := abs_add_le (binary32.round (N / D) - N / D) (N / D - (dS - d₂ + d₁) / (2 * dS))
    rw [sub_add_sub_cancel] at b4
    generalize |binary32.round (N / D) - (dS - d₂ + d₁) / (2 * dS)| = z at *
    generalize |binary32.round (N / D) - N / D| = z1 at *
    generalize |N / D - (dS - d₂ + d₁) / (2 * dS)| = z2 at *
    generalize N / D = z3 at *
    norm_num at *
    linarith

theorem Rel.err {k : ℕ} {q p c : ℚ} (h : Rel k (.fin q) p) (hc : (1 + mu24) ^ k ≤ 1 + c) (hc0 : 0 ≤ c) :
    |q - p| ≤ c * p := by
  have hq := h.pos
  obtain ⟨p0, q', h', l, u⟩ := h
  cases h'
  have l' := l.trans (mul_le_mul_of_nonneg_left hc hq.le)
  have u' := u.trans (mul_le_mul_of_nonneg_left hc p0.le)
  rw [abs_le]
  constructor
  · by_contra hn
    push Not at hn
    have : q * c ≤ p * c := mul_le_mul_of_nonneg_right (by nlinarith) hc0
    nlinarith
  · nlinarith

section
variable {n : ℕ} {v : Fin n → ℚ}

/-- inverse of a diagonal covariance -/
theorem inv_diag {E : EigenF} (hE : E.Diagonal) (hv : ∀ i, 1 / 2 ^ 12 ≤ v i) (hv' : ∀ i, v i ≤ 2 ^ 16) :
    ∃ a : Fin n → ℚ, E.inv (diagonalF fun i => .fin (v i)) = diagonalF (fun i => .fin (a i)) ∧
      (∀ i, Rel 1 (.fin (a i)) (1 / v i) ∧ IsFloat (a i) ∧ 1 / 2 ^ 16 ≤ 1 / v i ∧ 1 / v i ≤ 2 ^ 12) ∧
      ∀ i, a i = binary32.round (1 / v i) := by
  have vp : ∀ i, 0 < v i := fun i => lt_of_lt_of_le (by norm_num) (hv i)
  have r1 : ∀ i, 1 / 2 ^ 16 ≤ 1 / v i := fun i => one_div_le_one_div_of_le (vp i) (hv' i)
  have r2 : ∀ i, 1 / v i ≤ 2 ^ 12 := fun i => by
    have := one_div_le_one_div_of_le (by norm_num) (hv i)
    rwa [one_div_one_div] at this
  have hr : ∀ i, Rel 1 (FP.div binary32 (.fin 1) (.fin (v i))) (1 / v i) := fun i =>
    Rel.recip (le_trans (by norm_num) (r1 i)) ((r2 i).trans (by norm_num))
  have hfin : ∀ i, ∃ q, FP.div binary32 (.fin 1) (.fin (v i)) = .fin q := fun i => by
    obtain ⟨-, q, hq, -⟩ := hr i
    exact ⟨q, hq⟩
  choose a ha using hfin
  have hd : ∀ i, FP.div binary32 (.fin 1) (.fin (v i)) = FP.ofRat binary32 (1 / v i) := fun i =>
    if_neg (vp i).ne'
  refine ⟨a, ?_, fun i => ⟨ha i ▸ hr i, ?_, r1 i, r2 i⟩, fun i => (ofRat_fin (hd i ▸ ha i)).1⟩
  · rw [hE.inv v (fun i => (vp i).ne') fun i => ⟨a i, ha i⟩]
    simp only [ha]
  · exact isFloat_of_ofRat (hd i ▸ ha i)

end

section
variable {n : ℕ} {v₁ v₂ : Fin n → ℚ}

theorem weight_acc {E : EigenF} (hE : E.Diagonal) (hn : 0 < n) (hn' : n ≤ 6)
    (h₁ : ∀ i, 1 / 2 ^ 12 ≤ v₁ i) (h₁' : ∀ i, v₁ i ≤ 2 ^ 16) (h₂ : ∀ i, 1 / 2 ^ 12 ≤ v₂ i)
    (h₂' : ∀ i, v₂ i ≤ 2 ^ 16) :
    ∃ w, generateWeightF E (E.inv (diagonalF fun i => .fin (v₁ i)))
        (E.inv (diagonalF fun i => .fin (v₂ i))) = .fin w ∧ 0 ≤ w ∧ w ≤ 1 ∧
      |w - ciWeight (fun i => 1 / v₁ i) (fun i => 1 / v₂ i)| ≤ 40 / 2 ^ 24 := by
  obtain ⟨a, ea, ha, -⟩ := inv_diag hE h₁ h₁'
  obtain ⟨b, eb, hb, -⟩ := inv_diag hE h₂ h₂'
  obtain ⟨T, hT, hdet⟩ := hE.det n hn
  have hlen : T.leaves.length = n := by rw [hT.length_eq, length_finRange]
  have hprod : ∀ p : Fin n → ℚ, (T.leaves.map p).prod = ∏ i, p i := fun p => by
    rw [(hT.map p).prod_eq, Fin.prod_univ_def]
  have a0 : ∀ i, 0 < a i := fun i => (ha i).1.pos
  have b0 : ∀ i, 0 < b i := fun i => (hb i).1.pos
  -- the sum
  have hs : ∀ i, ∃ c, FP.add binary32 (.fin (a i)) (.fin (b i)) = .fin c ∧
      Rel 2 (.fin c) (1 / v₁ i + 1 / v₂ i) ∧ IsFloat c ∧ a i ≤ c ∧ b i ≤ c := fun i => by
    obtain ⟨ra, fa, a1, a2⟩ := ha i
    obtain ⟨rb, fb, b1, b2⟩ := hb i
    have hr := ra.add rb (by norm_num at *; linarith) (by norm_num at *; linarith) (by norm_num)
    obtain ⟨-, c, hc, -⟩ := id hr
    have hc' : FP.ofRat binary32 (a i + b i) = .fin c := hc
    obtain ⟨e, -⟩ := ofRat_fin hc'
    refine ⟨c, hc, hc ▸ hr, isFloat_of_ofRat hc', ?_, ?_⟩
    · have := binary32.round_mono (by decide) (a0 i).le (le_add_of_nonneg_right (b0 i).le)
      rwa [fa.round, ← e] at this
    · have := binary32.round_mono (by decide) (b0 i).le (le_add_of_nonneg_left (a0 i).le)
      rwa [fb.round, ← e] at this
  choose c hc rc fc ac bc using hs
  have c0 : ∀ i, 0 < c i := fun i => (rc i).pos
  have hsum : (fun i j => FP.add binary32 (diagonalF (fun i => .fin (a i)) i j)
      (diagonalF (fun i => .fin (b i)) i j)) = diagonalF fun i => .fin (c i) := by
    funext i j
    unfold diagonalF
    by_cases hij : i = j
    · rw [if_pos hij, if_pos hij, if_pos hij, hc]
    · rw [if_neg hij, if_neg hij, if_neg hij, add_zero_zero]
  unfold generateWeightF
  simp only
  rw [ea, eb, hsum, hdet a fun i => (a0 i).ne', hdet b fun i => (b0 i).ne', hdet c fun i => (c0 i).ne']
  -- determinants
  have range : ∀ {p : Fin n → ℚ}, (∀ i, 1 / 2 ^ 16 ≤ p i ∧ p i ≤ 2 ^ 13) →
      1 / 2 ^ 96 ≤ ∏ i, p i ∧ ∏ i, p i ≤ 2 ^ 78 := fun {p} hp => by
    have := prod_range (l := T.leaves.map p) fun x hx => by
      obtain ⟨i, -, rfl⟩ := mem_map.1 hx
      exact hp i
    rw [length_map, hlen, hprod] at this
    exact ⟨(one_div_le_one_div_of_le (by positivity) (pow_le_pow_right₀ (by norm_num) (by omega))).trans
      this.1, this.2.trans (pow_le_pow_right₀ (by norm_num) (by omega))⟩
  have pa : ∀ i, 1 / 2 ^ 16 ≤ 1 / v₁ i ∧ 1 / v₁ i ≤ 2 ^ 13 := fun i =>
    ⟨(ha i).2.2.1, (ha i).2.2.2.trans (by norm_num)⟩
  have pb : ∀ i, 1 / 2 ^ 16 ≤ 1 / v₂ i ∧ 1 / v₂ i ≤ 2 ^ 13 := fun i =>
    ⟨(hb i).2.2.1, (hb i).2.2.2.trans (by norm_num)⟩
  have pc : ∀ i, 1 / 2 ^ 16 ≤ 1 / v₁ i + 1 / v₂ i ∧ 1 / v₁ i + 1 / v₂ i ≤ 2 ^ 13 := fun i => by
    have h1 := (ha i).2.2
    have h2 := (hb i).2.2
    constructor <;> norm_num at * <;> linarith
  obtain ⟨j1, e1, r1⟩ := T.rel (fun i => (ha i).1) pa (by norm_num) (by omega)
  obtain ⟨j2, e2, r2⟩ := T.rel (fun i => (hb i).1) pb (by norm_num) (by omega)
  obtain ⟨j3, e3, r3⟩ := T.rel rc pc (by norm_num) (by omega)
  rw [hprod] at r1 r2 r3
  rw [hlen] at e1 e2 e3
  replace r1 := r1.mono (show j1 ≤ 11 by omega)
  replace r2 := r2.mono (show j2 ≤ 11 by omega)
  replace r3 := r3.mono (show j3 ≤ 17 by omega)
  obtain ⟨-, xS, hxS, -⟩ := id r3
  obtain ⟨x₁, hx₁, x10, x1S⟩ := T.eval_mono (fun i => (a0 i).le) ac hxS
  obtain ⟨x₂, hx₂, x20, x2S⟩ := T.eval_mono (fun i => (b0 i).le) bc hxS
  rw [hxS] at r3
  rw [hx₁] at r1
  rw [hx₂] at r2
  rw [hxS, hx₁, hx₂]
  have hle : ∏ i, 1 / v₁ i + ∏ i, 1 / v₂ i ≤ ∏ i, (1 / v₁ i + 1 / v₂ i) := by
    have p1 : ∀ i, 0 ≤ 1 / v₁ i := fun i => le_trans (by norm_num) (pa i).1
    have p2 : ∀ i, 0 ≤ 1 / v₂ i := fun i => le_trans (by norm_num) (pb i).1
    exact Finset.prod_add_prod_le (Finset.mem_univ (⟨0, hn⟩ : Fin n)) le_rfl
      (fun j _ _ => le_add_of_nonneg_right (p2 j)) (fun j _ _ => le_add_of_nonneg_left (p1 j))
      (fun j _ => p1 j) (fun j _ => p2 j)
  exact weight_numbers (le_trans (by norm_num) (range pb).1) hle
    (le_trans (by norm_num) (range pc).1) ((range pc).2.trans (by norm_num))
    (r1.err (by norm_num) (by norm_num)) (r2.err (by norm_num) (by norm_num))
    (r3.err (by norm_num) (by norm_num)) x10 x20 x1S x2S (T.eval_isFloat fc hxS)

/-! ### The fused mean -/

theorem maj_round {x : ℚ} (h : 0 ≤ x) :
    Maj 1 (1 / 2 ^ 150) (.fin (binary32.round x)) x x := by
  refine ⟨(abs_of_nonneg h).le, _, rfl, ?_⟩
  have := b32_std x
  rw [abs_of_nonneg h] at this
  unfold u24
  norm_num at *
  linarith

theorem Maj.weaken {k : ℕ} {δ : ℚ} {x : FP} {p m m' : ℚ} (h : Maj k δ x p m) (hm : m ≤ m') :
    Maj k δ x p m' := by
  obtain ⟨h1, q, rfl, h2⟩ := h
  exact ⟨h1.trans hm, q, rfl, h2.trans (add_le_add_left (mul_le_mul_of_nonneg_left hm
    (sub_nonneg.2 (one_le_pow_u24 k))) _)⟩

/-- an entry of the scaled product with a diagonal matrix: one of three products -/
theorem IsScaledRowF.diag {w : ℚ} {a v : Fin n → ℚ} {i : Fin n} {x : FP}
    (h : IsScaledRowF (.fin w) (diagonalF (fun i => .fin (a i)) i) (fun j => .fin (v j)) x)
    (hf : ∀ j, (∃ q, FP.mul binary32 (.fin w) (.fin (a j)) = .fin q) ∧
      ∃ q, FP.mul binary32 (.fin w) (.fin (v j)) = .fin q)
    (h1 : ∃ q, FP.mul binary32 (FP.mul binary32 (.fin w) (.fin (a i))) (.fin (v i)) = .fin q)
    (h2 : ∃ q, FP.mul binary32 (.fin (a i)) (FP.mul binary32 (.fin w) (.fin (v i))) = .fin q)
    (h3 : ∃ q, FP.mul binary32 (.fin (a i)) (.fin (v i)) = .fin q) :
    x = FP.mul binary32 (FP.mul binary32 (.fin w) (.fin (a i))) (.fin (v i)) ∨
    x = FP.mul binary32 (.fin (a i)) (FP.mul binary32 (.fin w) (.fin (v i))) ∨
    x = FP.mul binary32 (.fin w) (FP.mul binary32 (.fin (a i)) (.fin (v i))) := by
  have z1 : ∀ q : ℚ, FP.mul binary32 (.fin 0) (.fin q) = .fin 0 := fun q => by
    show FP.ofRat binary32 (0 * q) = _
    rw [zero_mul, ofRat_zero]
  have z2 : ∀ q : ℚ, FP.mul binary32 (.fin q) (.fin 0) = .fin 0 := fun q => by
    show FP.ofRat binary32 (q * 0) = _
    rw [mul_zero, ofRat_zero]
  rcases h with h | h | ⟨y, h, rfl⟩
  · left
    obtain ⟨q, hq⟩ := h1
    rw [hq]
    refine h.diag (i := i) (mul_isFloat hq) ?_ fun j hj => ?_
    · simp only [diagonalF, if_true]; exact hq
    · simp only [diagonalF, if_neg (Ne.symm hj)]; rw [z2, z1]
  · right; left
    obtain ⟨q, hq⟩ := h2
    rw [hq]
    refine h.diag (i := i) (mul_isFloat hq) ?_ fun j hj => ?_
    · simp only [diagonalF, if_true]; exact hq
    · simp only [diagonalF, if_neg (Ne.symm hj)]
      obtain ⟨q', hq'⟩ := (hf j).2
      rw [hq', z1]
  · right; right
    obtain ⟨q, hq⟩ := h3
    rw [h.diag (i := i) (mul_isFloat hq) (by simp only [diagonalF, if_true]; exact hq) fun j hj => by
      simp only [diagonalF, if_neg (Ne.symm hj)]; rw [z1], hq]

/-- a scaled product of three factors, in three groupings -/
private theorem maj_three {w ω a α v : ℚ} {k : ℕ} {δ : ℚ} (hk : k ≤ 1) (hω' : ω ≤ 1)
    (hw : Maj k δ (.fin w) ω ω) (hδ : 0 ≤ δ) (hδ' : δ ≤ 1 / 2 ^ 150) (h0 : 0 ≤ α) (h0' : α ≤ 2 ^ 12)
    (ha : Maj 1 (1 / 2 ^ 150) (.fin a) α α) (hv : |v| ≤ 2 ^ 60) :
    (∃ q, FP.mul binary32 (.fin w) (.fin a) = .fin q) ∧
    (∃ q, FP.mul binary32 (.fin w) (.fin v) = .fin q) ∧
    (∃ q, FP.mul binary32 (.fin a) (.fin v) = .fin q) ∧
    Maj (k + 3) (1 / 2 ^ 72) (FP.mul binary32 (FP.mul binary32 (.fin w) (.fin a)) (.fin v))
      (ω * α * v) (ω * α * |v|) ∧
    Maj (k + 3) (1 / 2 ^ 72) (FP.mul binary32 (.fin a) (FP.mul binary32 (.fin w) (.fin v)))
      (ω * α * v) (ω * α * |v|) ∧
    Maj (k + 3) (1 / 2 ^ 72) (FP.mul binary32 (.fin w) (FP.mul binary32 (.fin a) (.fin v)))
      (ω * α * v) (ω * α * |v|) := by
  have p1 : ω * α ≤ 2 ^ 12 := by
    have := mul_le_mul hω' h0' h0 zero_le_one
    rwa [one_mul] at this
  have p2 : ω * |v| ≤ 2 ^ 60 := by
    have := mul_le_mul hω' hv (abs_nonneg _) zero_le_one
    rwa [one_mul] at this
  have p3 : α * |v| ≤ 2 ^ 72 := by
    have := mul_le_mul h0' hv (abs_nonneg _) (by norm_num)
    exact this.trans (by norm_num)
  have pm : ω * α * |v| ≤ 2 ^ 72 := by
    have := mul_le_mul p1 hv (abs_nonneg _) (by norm_num)
    exact this.trans (by norm_num)
  have d1 : ∀ {y c : ℚ}, 0 ≤ y → y ≤ c → δ * y ≤ 1 / 2 ^ 150 * c := fun h h' =>
    mul_le_mul hδ' h' h (by norm_num)
  have A1 := hw.mul ha (γ := 1 / 2 ^ 135) (by omega) (by norm_num) hδ (by norm_num) (p1.trans (by norm_num)) (by
      have e1 := d1 h0 h0'
      have e2 := d1 (y := 1 / 2 ^ 150) (c := 1) (by norm_num) (by norm_num)
      generalize δ * α = z at *
      generalize δ * (1 / 2 ^ 150) = z' at *
      norm_num at e1 e2 hω' ⊢
      linarith) (by norm_num)
  have A2 := hw.mul (Maj.exact v) (γ := 1 / 2 ^ 87) (by omega) (by norm_num) hδ le_rfl (p2.trans (by norm_num)) (by
      have e1 := d1 (abs_nonneg _) hv
      generalize δ * |v| = z at *
      norm_num at e1 ⊢
      linarith) (by norm_num)
  have A3 := ha.mul (Maj.exact v) (γ := 1 / 2 ^ 87) (by omega) (by norm_num) (by norm_num) le_rfl (p3.trans (by norm_num)) (by
      generalize |v| = z at *
      norm_num at hv ⊢
      linarith) (by norm_num)
  have B1 := A1.mul (Maj.exact v) (γ := 1 / 2 ^ 72) (by omega) (by norm_num) (by norm_num) le_rfl (pm.trans (by norm_num)) (by
      generalize |v| = z at *
      norm_num at hv ⊢
      linarith) (by norm_num)
  have B2 := ha.mul A2 (γ := 1 / 2 ^ 72) (by omega) (by omega) (by norm_num) (by norm_num)
      (le_trans (le_of_eq (by ring)) (pm.trans (by norm_num))) (by
      generalize ω * |v| = z at *
      norm_num at p2 h0' ⊢
      linarith) (by norm_num)
  have B3 := hw.mul A3 (γ := 1 / 2 ^ 72) (by omega) (by omega) hδ (by norm_num)
      (le_trans (le_of_eq (by ring)) (pm.trans (by norm_num))) (by
      have e1 := d1 (mul_nonneg h0 (abs_nonneg v)) p3
      have e2 := d1 (y := 1 / 2 ^ 87) (c := 1) (by norm_num) (by norm_num)
      generalize δ * (α * |v|) = z at *
      generalize δ * (1 / 2 ^ 87) = z' at *
      norm_num at e1 e2 hω' ⊢
      linarith) (by norm_num)
  rw [show α * (ω * v) = ω * α * v by ring, show α * (ω * |v|) = ω * α * |v| by ring] at B2
  rw [← mul_assoc, ← mul_assoc] at B3
  exact ⟨A1.2.imp fun _ h => h.1, A2.2.imp fun _ h => h.1, A3.2.imp fun _ h => h.1,
    B1.mono (by omega) le_rfl, B2.mono (by omega) le_rfl, B3.mono (by omega) le_rfl⟩

/-- the error of an entry of the scaled product: three or four roundings -/
theorem IsScaledRowF.maj {w ω : ℚ} {k : ℕ} {δ M : ℚ} {a α v : Fin n → ℚ} {i : Fin n} {x : FP}
    (h : IsScaledRowF (.fin w) (diagonalF (fun i => .fin (a i)) i) (fun j => .fin (v j)) x)
    (hk : k ≤ 1) (hω' : ω ≤ 1) (hw : Maj k δ (.fin w) ω ω) (hδ : 0 ≤ δ)
    (hδ' : δ ≤ 1 / 2 ^ 150) (hα : ∀ i, 0 ≤ α i ∧ α i ≤ 2 ^ 12)
    (ha : ∀ i, Maj 1 (1 / 2 ^ 150) (.fin (a i)) (α i) (α i)) (hv : ∀ i, |v i| ≤ M)
    (hM : M ≤ 2 ^ 60) :
    Maj (k + 3) (1 / 2 ^ 72) x (ω * α i * v i) (ω * α i * |v i|) := by
  have T := fun j => maj_three hk hω' hw hδ hδ' (hα j).1 (hα j).2 (ha j) ((hv j).trans hM)
  obtain ⟨-, -, t3, B1, B2, B3⟩ := T i
  rcases h.diag (fun j => ⟨(T j).1, (T j).2.1⟩) (B1.2.imp fun _ h => h.1) (B2.2.imp fun _ h => h.1) t3
    with rfl | rfl | rfl
  · exact B1
  · exact B2
  · exact B3

theorem intersection_acc {E : EigenF} (hE : E.Diagonal) (h₁ : ∀ i, 1 / 2 ^ 12 ≤ v₁ i)
    (h₁' : ∀ i, v₁ i ≤ 2 ^ 16) (h₂ : ∀ i, 1 / 2 ^ 12 ≤ v₂ i) (h₂' : ∀ i, v₂ i ≤ 2 ^ 16)
    {ω : ℚ} (hω : 0 ≤ ω) (hω' : ω ≤ 1) {m₁ m₂ x : Fin n → FP} {y₁ y₂ : Fin n → ℚ} {M : ℚ}
    (hy₁ : ∀ i, rotateYawF m₁ i = .fin (y₁ i)) (hy₂ : ∀ i, rotateYawF m₂ i = .fin (y₂ i))
    (hM₁ : ∀ i, |y₁ i| ≤ M) (hM₂ : ∀ i, |y₂ i| ≤ M) (hM : M ≤ 2 ^ 60)
    {C : Matrix (Fin n) (Fin n) FP}
    (h : IsIntersectionF E m₁ (E.inv (diagonalF fun i => .fin (v₁ i))) m₂
      (E.inv (diagonalF fun i => .fin (v₂ i))) (.fin ω) x C) :
    (∃ c : Fin n → ℚ, C = diagonalF (fun i => .fin (c i)) ∧ ∀ i,
      |c i - 1 / ciPrecision ω (fun i => 1 / v₁ i) (fun i => 1 / v₂ i) i| ≤
        1 / 2 ^ 20 * (1 / ciPrecision ω (fun i => 1 / v₁ i) (fun i => 1 / v₂ i) i)) ∧
    ∀ i, ∃ z, x i = .fin z ∧
      |z - ciMean ω (fun i => 1 / v₁ i) (fun i => 1 / v₂ i) y₁ y₂ i| ≤ M / 2 ^ 20 + 1 / 2 ^ 50 := by
  obtain ⟨a, ea, ha, ra⟩ := inv_diag hE h₁ h₁'
  obtain ⟨b, eb, hb, rb⟩ := inv_diag hE h₂ h₂'
  rw [ea, eb] at h
  obtain ⟨hC, s₁, s₂, hs₁, hs₂, hx⟩ := h
  rw [show rotateYawF m₁ = fun i => .fin (y₁ i) from funext hy₁] at hs₁
  rw [show rotateYawF m₂ = fun i => .fin (y₂ i) from funext hy₂] at hs₂
  have z1 : ∀ q : ℚ, FP.mul binary32 (.fin 0) (.fin q) = .fin 0 := fun q => by
    show FP.ofRat binary32 (0 * q) = _
    rw [zero_mul, ofRat_zero]
  have z2 : ∀ q : ℚ, FP.mul binary32 (.fin q) (.fin 0) = .fin 0 := fun q => by
    show FP.ofRat binary32 (q * 0) = _
    rw [mul_zero, ofRat_zero]
  have q0 : 0 ≤ 1 - ω := by linarith
  have q1 : 1 - ω ≤ 1 := by linarith
  have hw₂ : FP.sub binary32 (.fin 1) (.fin ω) = .fin (binary32.round (1 - ω)) :=
    b32_ofRat (by rw [abs_of_nonneg q0]; exact q1.trans (by norm_num))
  have mw₂ := maj_round q0
  have mw₁ : Maj 0 0 (.fin ω) ω ω := by
    have := Maj.exact ω
    rwa [abs_of_nonneg hω] at this
  rw [hw₂] at hs₂
  have a0 : ∀ i, 0 ≤ 1 / v₁ i ∧ 1 / v₁ i ≤ 2 ^ 12 := fun i =>
    ⟨le_trans (by norm_num) (ha i).2.2.1, (ha i).2.2.2⟩
  have b0 : ∀ i, 0 ≤ 1 / v₂ i ∧ 1 / v₂ i ≤ 2 ^ 12 := fun i =>
    ⟨le_trans (by norm_num) (hb i).2.2.1, (hb i).2.2.2⟩
  have ma : ∀ i, Maj 1 (1 / 2 ^ 150) (.fin (a i)) (1 / v₁ i) (1 / v₁ i) := fun i => by
    rw [ra i]
    exact maj_round (a0 i).1
  have mb : ∀ i, Maj 1 (1 / 2 ^ 150) (.fin (b i)) (1 / v₂ i) (1 / v₂ i) := fun i => by
    rw [rb i]
    exact maj_round (b0 i).1
  set γ := ciPrecision ω (fun i => 1 / v₁ i) (fun i => 1 / v₂ i) with hγ
  have hγi : ∀ i, γ i = ω * (1 / v₁ i) + (1 - ω) * (1 / v₂ i) := fun i => rfl
  have γ1 : ∀ i, 1 / 2 ^ 16 ≤ γ i := fun i => by
    have e1 := mul_le_mul_of_nonneg_left (ha i).2.2.1 hω
    have e2 := mul_le_mul_of_nonneg_left (hb i).2.2.1 q0
    rw [hγi]
    linarith
  have γ2 : ∀ i, γ i ≤ 2 ^ 12 := fun i => by
    have e1 := mul_le_mul_of_nonneg_left (ha i).2.2.2 hω
    have e2 := mul_le_mul_of_nonneg_left (hb i).2.2.2 q0
    rw [hγi]
    linarith
  have γ0 : ∀ i, 0 < γ i := fun i => lt_of_lt_of_le (by norm_num) (γ1 i)
  -- inverse covariance
  have pa : ∀ i, ω * (1 / v₁ i) ≤ 2 ^ 12 := fun i => by
    have := mul_le_mul hω' (a0 i).2 (a0 i).1 zero_le_one
    simpa using this
  have pb : ∀ i, (1 - ω) * (1 / v₂ i) ≤ 2 ^ 12 := fun i => by
    have := mul_le_mul q1 (b0 i).2 (b0 i).1 zero_le_one
    simpa using this
  have mg : ∀ i, Maj 4 (1 / 2 ^ 130) (FP.add binary32 (FP.mul binary32 (.fin ω) (.fin (a i)))
      (FP.mul binary32 (.fin (binary32.round (1 - ω))) (.fin (b i)))) (γ i) (γ i) := fun i => by
    have A := (mw₁.mul (ma i) (γ := 1 / 2 ^ 135) (by omega) (by norm_num) le_rfl (by norm_num)
      ((pa i).trans (by norm_num)) (by norm_num at *; linarith) (by norm_num)).mono
      (show 0 + 1 + 1 ≤ 3 by norm_num) le_rfl
    have B := mw₂.mul (mb i) (γ := 1 / 2 ^ 135) (by omega) (by norm_num) (by norm_num) (by norm_num)
      ((pb i).trans (by norm_num)) (by
        have := (b0 i).2
        norm_num at *; linarith) (by norm_num)
    exact A.add B (by norm_num) (by norm_num) (by norm_num) ((γ2 i).trans (by norm_num))
      (by norm_num) (by norm_num)
  choose g hg eg using fun i => (mg i).2
  have hcomb : combinedF (diagonalF fun i => .fin (a i)) (diagonalF fun i => .fin (b i)) (.fin ω) =
      diagonalF fun i => .fin (g i) := by
    funext i j
    unfold combinedF diagonalF
    rw [hw₂]
    by_cases hij : i = j
    · rw [if_pos hij, if_pos hij, if_pos hij, hg]
    · rw [if_neg hij, if_neg hij, if_neg hij, z2, z2, add_zero_zero]
  have hrec : ∀ i, ∃ c, FP.div binary32 (.fin 1) (.fin (g i)) = .fin c ∧
      |c - 1 / γ i| ≤ 44 / 5 / 2 ^ 24 * (1 / γ i) := fun i => by
    have hab : |γ i| = γ i := abs_of_pos (γ0 i)
    have := recip_err (D := γ i) (D' := g i) (P := γ i) (by rw [hab]; exact le_trans (by norm_num) (γ1 i))
      hab.le ((γ2 i).trans (by norm_num)) (by
        rw [hab]
        have := (γ0 i).le
        norm_num
        linarith) (((mg i).mono (show 4 ≤ 5 by norm_num) (show (1 : ℚ) / 2 ^ 130 ≤ 1 / 2 ^ 127 by norm_num)).2.elim
          fun q hq => by
            have : g i = q := by have := (hg i).symm.trans hq.1; simpa using this
            rw [this]; exact hq.2)
    obtain ⟨c, h1, h2⟩ := this
    refine ⟨c, h1, h2.trans (le_of_eq ?_)⟩
    rw [hab, div_self (γ0 i).ne']
    ring
  choose c hc ec using hrec
  have g0 : ∀ i, g i ≠ 0 := fun i h => by
    have := hc i
    rw [h] at this
    exact absurd this (by simp [FP.div])
  have hCd : C = diagonalF fun i => .fin (c i) := by
    rw [hC, hcomb, hE.invX g g0 fun i => ⟨c i, hc i⟩]
    simp only [hc]
  refine ⟨⟨c, hCd, fun i => (ec i).trans ?_⟩, fun i => ?_⟩
  · exact mul_le_mul_of_nonneg_right (by norm_num) (one_div_pos.2 (γ0 i)).le
  -- mean
  have M0 : 0 ≤ M := (abs_nonneg _).trans (hM₁ i)
  have S : ∀ j, Maj 5 (1 / 2 ^ 70) (FP.add binary32 (s₁ j) (s₂ j))
      (ω * (1 / v₁ j) * y₁ j + (1 - ω) * (1 / v₂ j) * y₂ j) (γ j * M) := fun j => by
    have A := ((hs₁ j).maj (by norm_num) hω' mw₁ le_rfl (by norm_num) a0 ma hM₁ hM).mono
      (show 0 + 3 ≤ 4 by norm_num) le_rfl
    have B := (hs₂ j).maj (by norm_num) q1 mw₂ (by norm_num) le_rfl b0 mb hM₂ hM
    have hle : ω * (1 / v₁ j) * |y₁ j| + (1 - ω) * (1 / v₂ j) * |y₂ j| ≤ γ j * M := by
      have e1 := mul_le_mul_of_nonneg_left (hM₁ j) (mul_nonneg hω (a0 j).1)
      have e2 := mul_le_mul_of_nonneg_left (hM₂ j) (mul_nonneg q0 (b0 j).1)
      rw [hγi, add_mul]
      exact add_le_add e1 e2
    have hlt : γ j * M ≤ 2 ^ 72 := by
      have := mul_le_mul (γ2 j) hM M0 (by norm_num)
      exact this.trans (by norm_num)
    exact (A.add B (by norm_num) (by norm_num) (by norm_num) (hle.trans (hlt.trans (by norm_num)))
      (by norm_num) (by norm_num)).weaken hle
  have mc : Maj 9 0 (.fin (c i)) (1 / γ i) (1 / γ i) := by
    have p := (one_div_pos.2 (γ0 i)).le
    refine ⟨(abs_of_nonneg p).le, c i, rfl, (ec i).trans ?_⟩
    rw [add_zero]
    exact mul_le_mul_of_nonneg_right (by unfold u24; norm_num) p
  have ig : 1 / γ i ≤ 2 ^ 16 := by
    have := one_div_le_one_div_of_le (by norm_num) (γ1 i)
    rwa [one_div_one_div] at this
  have R := mc.mul (S i) (γ := 1 / 2 ^ 51) (by norm_num) (by norm_num) le_rfl (by norm_num) (by
      rw [← mul_assoc, one_div_mul_cancel (γ0 i).ne', one_mul]
      exact hM.trans (by norm_num)) (by norm_num at *; linarith) (by norm_num)
  rw [← mul_assoc, one_div_mul_cancel (γ0 i).ne', one_mul] at R
  obtain ⟨-, z, hz, ez⟩ := R
  refine ⟨z, (hx i).diag (i := i) (mul_isFloat hz) ?_ fun j hj => ?_, ?_⟩
  · rw [hCd]
    simp only [diagonalF, if_true]
    exact hz
  · rw [hCd]
    simp only [diagonalF, if_neg (Ne.symm hj)]
    obtain ⟨-, q, hq, -⟩ := S j
    rw [hq, z1]
  · unfold ciMean
    rw [← hγ, div_eq_inv_mul, ← one_div]
    refine ez.trans ?_
    unfold u24
    norm_num
    linarith

end

end Mot
