import Verif.Proofs.FloatMahalanobis
import Verif.Spec.FloatMahalanobis
import Mathlib.Tactic.FieldSimp
/-!
# Rounding errors of the 3×3 inverse and of the quadratic form
-/

namespace Mot

open Spec

/-- `x` is finite and approximates `p` with `k` roundings relative to `m ≥ |p|` -/
def Maj (k : ℕ) (δ : ℚ) (x : FP) (p m : ℚ) : Prop :=
  |p| ≤ m ∧ ∃ q, x = .fin q ∧ |q - p| ≤ ((1 + u24) ^ k - 1) * m + δ

theorem Maj.exact (q : ℚ) : Maj 0 0 (.fin q) q |q| := ⟨le_rfl, q, rfl, by simp⟩

theorem pow_u24_le_two {k : ℕ} (hk : k ≤ 16) : (1 + u24) ^ k ≤ 2 := by
  refine (pow_u24 (hk.trans (by norm_num))).trans ?_
  have : (k : ℚ) ≤ 16 := by exact_mod_cast hk
  unfold u24
  norm_num only
  linarith

theorem one_le_pow_u24 (k : ℕ) : 1 ≤ (1 + u24) ^ k := one_le_pow₀ (by norm_num)

theorem Maj.mono {k l : ℕ} {δ ε : ℚ} {x : FP} {p m : ℚ} (h : Maj k δ x p m) (hk : k ≤ l)
    (hd : δ ≤ ε) : Maj l ε x p m := by
  obtain ⟨hm, q, rfl, hq⟩ := h
  refine ⟨hm, q, rfl, hq.trans (add_le_add (mul_le_mul_of_nonneg_right (sub_le_sub_right
    (pow_le_pow_right₀ (by norm_num) hk) 1) ((abs_nonneg _).trans hm)) hd)⟩

theorem Maj.mul {a b : ℕ} {δ ε γ : ℚ} {x y : FP} {p q m n : ℚ} (h : Maj a δ x p m) (h' : Maj b ε y q n)
    (ha : a ≤ 16) (hb : b ≤ 16) (hd : 0 ≤ δ) (he : 0 ≤ ε) (hmn : m * n ≤ 2 ^ 120)
    (hg : 3 * (δ * n + ε * m) + 2 * (δ * ε) + 1 / 2 ^ 150 ≤ γ) (hg1 : γ ≤ 1) :
    Maj (a + b + 1) γ (FP.mul binary32 x y) (p * q) (m * n) := by
  unfold Maj at *
  obtain ⟨hm, p', rfl, hp⟩ := h
  obtain ⟨hn, q', rfl, hq⟩ := h'
  have m0 : 0 ≤ m := (abs_nonneg _).trans hm
  have n0 : 0 ≤ n := (abs_nonneg _).trans hn
  have hA := pow_u24_le_two ha
  have hB := pow_u24_le_two hb
  have hA1 := one_le_pow_u24 a
  have hB1 := one_le_pow_u24 b
  rw [pow_succ, pow_add]
  generalize (1 + u24) ^ a = A at *
  generalize (1 + u24) ^ b = B at *
  refine ⟨by rw [abs_mul]; exact mul_le_mul hm hn (abs_nonneg _) m0, binary32.round (p' * q'), ?_⟩
  have hq' : |q'| ≤ B * n + ε := by
    have := abs_sub_abs_le_abs_sub q' q
    linarith
  have e1 : |p' * q' - p * q| ≤ (A * B - 1) * (m * n) + (δ * B * n + ε * A * m + δ * ε) := by
    rw [show p' * q' - p * q = (p' - p) * q' + p * (q' - q) by ring]
    refine (abs_add_le _ _).trans ?_
    rw [abs_mul, abs_mul]
    have t1 := mul_le_mul hp hq' (abs_nonneg _) ((abs_nonneg _).trans hp)
    have t2 := mul_le_mul hm hq (abs_nonneg _) m0
    refine (add_le_add t1 t2).trans (le_of_eq ?_)
    ring
  set E := δ * B * n + ε * A * m + δ * ε with hE
  have hE0 : 0 ≤ E := by positivity
  have hE2 : E ≤ 2 * (δ * n + ε * m) + δ * ε := by
    have t1 := mul_le_mul_of_nonneg_left hB (mul_nonneg hd n0)
    have t2 := mul_le_mul_of_nonneg_left hA (mul_nonneg he m0)
    rw [hE]
    nlinarith
  have s0 := mul_nonneg hd n0
  have s1 := mul_nonneg he m0
  have s2 := mul_nonneg hd he
  have hpq : |p * q| ≤ m * n := by rw [abs_mul]; exact mul_le_mul hm hn (abs_nonneg _) m0
  have hz : |p' * q'| ≤ A * B * (m * n) + E := by
    have := abs_sub_abs_le_abs_sub (p' * q') (p * q)
    linarith
  have mn0 : 0 ≤ m * n := mul_nonneg m0 n0
  have hAB : A * B ≤ 4 := by nlinarith
  have t3 := mul_le_mul_of_nonneg_right hAB mn0
  have hfin : |p' * q'| ≤ 2 ^ 127 := by
    refine hz.trans ?_
    have : E ≤ 1 := by linarith [show (0 : ℚ) < 1 / 2 ^ 150 by positivity]
    norm_num at hmn ⊢
    linarith
  refine ⟨b32_ofRat hfin, ?_⟩
  have c := b32_std (p' * q')
  have c2 := abs_sub_le (binary32.round (p' * q')) (p' * q') (p * q)
  have c3 : |p' * q'| / 2 ^ 24 ≤ u24 * (A * B * (m * n) + E) := by
    rw [show |p' * q'| / 2 ^ 24 = u24 * |p' * q'| by unfold u24; ring]
    exact mul_le_mul_of_nonneg_left hz (by norm_num)
  have c4 : u24 * E ≤ 1 / 2 * E := mul_le_mul_of_nonneg_right (by norm_num) hE0
  have e : (A * B * (1 + u24) - 1) * (m * n) + γ =
    (A * B - 1) * (m * n) + u24 * (A * B * (m * n)) + γ := by ring
  rw [e]
  rw [mul_add u24] at c3
  clear hE e hfin
  clear_value E
  generalize |p' * q'| / 2 ^ 24 = z at *
  generalize u24 * E = y at *
  generalize u24 * (A * B * (m * n)) = w at *
  generalize (1 : ℚ) / 2 ^ 150 = τ at *
  linarith

theorem Maj.add {k : ℕ} {δ ε γ : ℚ} {x y : FP} {p q m n : ℚ} (h : Maj k δ x p m) (h' : Maj k ε y q n)
    (hk : k ≤ 16) (hd : 0 ≤ δ) (he : 0 ≤ ε) (hmn : m + n ≤ 2 ^ 120)
    (hg : 101 / 100 * (δ + ε) + 1 / 2 ^ 150 ≤ γ) (hg1 : γ ≤ 1) :
    Maj (k + 1) γ (FP.add binary32 x y) (p + q) (m + n) := by
  unfold Maj at *
  obtain ⟨hm, p', rfl, hp⟩ := h
  obtain ⟨hn, q', rfl, hq⟩ := h'
  have hA := pow_u24_le_two hk
  have hA1 := one_le_pow_u24 k
  rw [pow_succ]
  generalize (1 + u24) ^ k = A at *
  have hpq : |p + q| ≤ m + n := (abs_add_le _ _).trans (add_le_add hm hn)
  refine ⟨hpq, binary32.round (p' + q'), ?_⟩
  have e1 : |p' + q' - (p + q)| ≤ (A - 1) * (m + n) + (δ + ε) := by
    rw [show p' + q' - (p + q) = (p' - p) + (q' - q) by ring]
    exact (abs_add_le _ _).trans ((add_le_add hp hq).trans (le_of_eq (by ring)))
  have hz : |p' + q'| ≤ A * (m + n) + (δ + ε) := by
    have := abs_sub_abs_le_abs_sub (p' + q') (p + q)
    linarith
  have mn0 : 0 ≤ m + n := (abs_nonneg _).trans hpq
  have t3 := mul_le_mul_of_nonneg_right hA mn0
  have hfin : |p' + q'| ≤ 2 ^ 127 := by
    refine hz.trans ?_
    have : (0 : ℚ) < 1 / 2 ^ 150 := by positivity
    norm_num at hmn ⊢
    linarith
  refine ⟨b32_ofRat hfin, ?_⟩
  have c := b32_std (p' + q')
  have c2 := abs_sub_le (binary32.round (p' + q')) (p' + q') (p + q)
  have c3 : |p' + q'| / 2 ^ 24 ≤ u24 * (A * (m + n) + (δ + ε)) := by
    rw [show |p' + q'| / 2 ^ 24 = u24 * |p' + q'| by unfold u24; ring]
    exact mul_le_mul_of_nonneg_left hz (by norm_num)
  have c4 : u24 * (δ + ε) ≤ 1 / 100 * (δ + ε) := mul_le_mul_of_nonneg_right (by norm_num) (by linarith)
  have e : (A * (1 + u24) - 1) * (m + n) + γ = (A - 1) * (m + n) + u24 * (A * (m + n)) + γ := by ring
  rw [e]
  rw [mul_add u24] at c3
  clear e hfin
  generalize |p' + q'| / 2 ^ 24 = z at *
  generalize u24 * (δ + ε) = y at *
  generalize u24 * (A * (m + n)) = w at *
  generalize (1 : ℚ) / 2 ^ 150 = τ at *
  linarith

theorem sub_eq_add_neg' (f : Fmt) (a b : FP) : FP.sub f a b = FP.add f a b.neg := by
  cases a with
  | nan => cases b <;> rfl
  | inf s =>
    cases b with
    | nan => rfl
    | inf t => cases s <;> cases t <;> rfl
    | fin q => rfl
  | fin p =>
    cases b with
    | nan => rfl
    | inf t => rfl
    | fin q =>
      show FP.ofRat f (p - q) = FP.ofRat f (p + -q)
      rw [sub_eq_add_neg]

theorem Maj.neg {k : ℕ} {δ : ℚ} {x : FP} {p m : ℚ} (h : Maj k δ x p m) : Maj k δ x.neg (-p) m := by
  obtain ⟨hm, q, rfl, hq⟩ := h
  refine ⟨by rwa [abs_neg], -q, rfl, ?_⟩
  rwa [show -q - -p = -(q - p) by ring, abs_neg]

theorem Maj.sub {k : ℕ} {δ ε γ : ℚ} {x y : FP} {p q m n : ℚ} (h : Maj k δ x p m) (h' : Maj k ε y q n)
    (hk : k ≤ 16) (hd : 0 ≤ δ) (he : 0 ≤ ε) (hmn : m + n ≤ 2 ^ 120)
    (hg : 101 / 100 * (δ + ε) + 1 / 2 ^ 150 ≤ γ) (hg1 : γ ≤ 1) :
    Maj (k + 1) γ (FP.sub binary32 x y) (p - q) (m + n) := by
  rw [sub_eq_add_neg', sub_eq_add_neg]
  exact h.add h'.neg hk hd he hmn hg hg1

theorem Maj.sum3 {k : ℕ} {δ : ℚ} {x y z s : FP} {p q r m n o : ℚ} (hx : Maj k δ x p m)
    (hy : Maj k δ y q n) (hz : Maj k δ z r o) (hs : SumsTo binary32 [x, y, z] s) (hk : k ≤ 15)
    (hd : 0 ≤ δ) (hd1 : δ ≤ 1 / 10) (hS : m + n + o ≤ 2 ^ 120) :
    Maj (k + 2) (4 * δ + 1 / 2 ^ 147) s (p + q + r) (m + n + o) := by
  have key : ∀ {x y z : FP} {p q r m n o : ℚ}, Maj k δ x p m → Maj k δ y q n → Maj k δ z r o →
      m + n + o ≤ 2 ^ 120 →
      Maj (k + 2) (4 * δ + 1 / 2 ^ 147) (FP.add binary32 (FP.add binary32 x y) z) (p + q + r)
        (m + n + o) := by
    intro x y z p q r m n o hx hy hz hS
    have o0 : 0 ≤ o := (abs_nonneg _).trans hz.1
    have h1 := hx.add hy (γ := 11 / 5 * δ + 1 / 2 ^ 149) (by omega) hd hd (by linarith)
      (by norm_num; linarith) (by norm_num; linarith)
    exact h1.add (hz.mono (Nat.le_succ k) le_rfl) (by omega)
      (by norm_num; linarith) hd hS
      (by norm_num; linarith) (by norm_num; linarith)
  rcases hs.length_three (List.Perm.refl _) with rfl | rfl | rfl
  · exact key hx hy hz hS
  · have := key hx hz hy (by linarith)
    rwa [show p + r + q = p + q + r by ring, show m + o + n = m + n + o by ring] at this
  · have := key hy hz hx (by linarith)
    rwa [show q + r + p = p + q + r by ring, show n + o + m = m + n + o by ring] at this

/-! ### Cofactors and determinant -/

/-- exact cofactor -/
def cof3 (C : Matrix (Fin 3) (Fin 3) ℚ) (i j : Fin 3) : ℚ :=
  C (i + 1) (j + 1) * C (i + 2) (j + 2) - C (i + 1) (j + 2) * C (i + 2) (j + 1)

theorem det_cof3 (C : Matrix (Fin 3) (Fin 3) ℚ) :
    C.det = cof3 C 0 0 * C 0 0 + cof3 C 1 0 * C 1 0 + cof3 C 2 0 * C 2 0 := by
  rw [Matrix.det_fin_three]
  simp only [cof3, show (0 : Fin 3) + 1 = 1 from rfl, show (0 : Fin 3) + 2 = 2 from rfl,
    show (1 : Fin 3) + 1 = 2 from rfl, show (1 : Fin 3) + 2 = 0 from rfl,
    show (2 : Fin 3) + 1 = 0 from rfl, show (2 : Fin 3) + 2 = 1 from rfl]
  ring

theorem inv_cof3 (C : Matrix (Fin 3) (Fin 3) ℚ) (i j : Fin 3) : C⁻¹ i j = cof3 C j i / C.det := by
  rw [Matrix.inv_def, Matrix.smul_apply, Ring.inverse_eq_inv', smul_eq_mul, div_eq_inv_mul]
  congr 1
  rw [Matrix.adjugate_fin_three]
  fin_cases i <;> fin_cases j <;>
    simp [cof3, show (0 : Fin 3) + 1 = 1 from rfl, show (0 : Fin 3) + 2 = 2 from rfl,
    show (1 : Fin 3) + 1 = 2 from rfl, show (1 : Fin 3) + 2 = 0 from rfl,
    show (2 : Fin 3) + 1 = 0 from rfl, show (2 : Fin 3) + 2 = 1 from rfl] <;> ring

theorem absCofactor_nonneg (C : Matrix (Fin 3) (Fin 3) ℚ) (i j : Fin 3) : 0 ≤ absCofactor C i j := by
  unfold absCofactor
  positivity

theorem abs_cof3_le (C : Matrix (Fin 3) (Fin 3) ℚ) (i j : Fin 3) : |cof3 C i j| ≤ absCofactor C i j := by
  unfold cof3 absCofactor
  refine (abs_sub _ _).trans (le_of_eq ?_)
  rw [abs_mul, abs_mul]

theorem abs_det_le (C : Matrix (Fin 3) (Fin 3) ℚ) : |C.det| ≤ absDet C := by
  rw [det_cof3]
  unfold absDet
  have h : ∀ i, |cof3 C i 0 * C i 0| ≤ |C i 0| * absCofactor C i 0 := fun i => by
    rw [abs_mul, mul_comm]
    exact mul_le_mul_of_nonneg_left (abs_cof3_le C i 0) (abs_nonneg _)
  exact (abs_add_le _ _).trans (add_le_add ((abs_add_le _ _).trans (add_le_add (h 0) (h 1))) (h 2))

variable {C : Matrix (Fin 3) (Fin 3) ℚ} (hC : ∀ i j, |C i j| ≤ 2 ^ 16)

include hC in
theorem absCofactor_le (i j : Fin 3) : absCofactor C i j ≤ 2 ^ 33 := by
  unfold absCofactor
  have h : ∀ i j k l, |C i j| * |C k l| ≤ 2 ^ 32 := fun i j k l =>
    (mul_le_mul (hC i j) (hC k l) (abs_nonneg _) (by norm_num)).trans (by norm_num)
  refine (add_le_add (h _ _ _ _) (h _ _ _ _)).trans (by norm_num)

include hC in
theorem absDet_le : absDet C ≤ 2 ^ 51 := by
  have h : ∀ i, |C i 0| * absCofactor C i 0 ≤ 2 ^ 49 := fun i =>
    (mul_le_mul (hC i 0) (absCofactor_le hC i 0) (absCofactor_nonneg C i 0) (by norm_num)).trans
      (by norm_num)
  unfold absDet
  refine (add_le_add (add_le_add (h 0) (h 1)) (h 2)).trans (by norm_num)

/-- the matrix as it is stored -/
def finMat (C : Matrix (Fin 3) (Fin 3) ℚ) : Fin 3 → Fin 3 → FP := fun i j => .fin (C i j)

include hC in
theorem product_maj (i j k l : Fin 3) : Maj 1 (1 / 2 ^ 150)
    (FP.mul binary32 (finMat C i j) (finMat C k l)) (C i j * C k l) (|C i j| * |C k l|) := by
  have hb : |C i j| * |C k l| ≤ 2 ^ 120 :=
    (mul_le_mul (hC i j) (hC k l) (abs_nonneg _) (by norm_num)).trans (by norm_num)
  have := (Maj.exact (C i j)).mul (γ := 1 / 2 ^ 150) (Maj.exact (C k l)) (by norm_num) (by norm_num)
    le_rfl le_rfl hb (by norm_num) (by norm_num)
  exact this

include hC in
theorem cofactor_maj (i j : Fin 3) :
    Maj 2 (1 / 2 ^ 148) (cofactorF (finMat C) i j) (cof3 C i j) (absCofactor C i j) := by
  have hb := (absCofactor_le hC i j).trans (show (2 : ℚ) ^ 33 ≤ 2 ^ 120 by norm_num)
  unfold absCofactor at hb
  have h1 := product_maj hC (i + 1) (j + 1) (i + 2) (j + 2)
  have h2 := product_maj hC (i + 1) (j + 2) (i + 2) (j + 1)
  exact h1.sub (γ := 1 / 2 ^ 148) h2 (by norm_num) (by norm_num) (by norm_num) hb (by norm_num)
    (by norm_num)

include hC in
theorem term_maj (i : Fin 3) :
    Maj 3 (1 / 2 ^ 130) (FP.mul binary32 (cofactorF (finMat C) i 0) (finMat C i 0))
      (cof3 C i 0 * C i 0) (absCofactor C i 0 * |C i 0|) := by
  have hb : absCofactor C i 0 * |C i 0| ≤ 2 ^ 120 :=
    (mul_le_mul (absCofactor_le hC i 0) (hC i 0) (abs_nonneg _) (by norm_num)).trans (by norm_num)
  have hg : 3 * (1 / 2 ^ 148 * |C i 0| + 0 * absCofactor C i 0) + 2 * (1 / 2 ^ 148 * 0) + 1 / 2 ^ 150 ≤
      (1 / 2 ^ 130 : ℚ) := by
    have := hC i 0
    norm_num at this ⊢
    linarith
  have := (cofactor_maj hC i 0).mul (γ := 1 / 2 ^ 130) (Maj.exact (C i 0)) (by norm_num) (by norm_num)
    (by norm_num) le_rfl hb hg (by norm_num)
  exact this

include hC in
theorem det_maj {d : FP} (h : IsDet3F (finMat C) d) : Maj 5 (1 / 2 ^ 127) d C.det (absDet C) := by
  have e : absDet C = absCofactor C 0 0 * |C 0 0| + absCofactor C 1 0 * |C 1 0| +
      absCofactor C 2 0 * |C 2 0| := by unfold absDet; ring
  have hb := (absDet_le hC).trans (show (2 : ℚ) ^ 51 ≤ 2 ^ 120 by norm_num)
  rw [e] at hb
  have := Maj.sum3 (term_maj hC 0) (term_maj hC 1) (term_maj hC 2) h (by norm_num) (by norm_num)
    (by norm_num) hb
  rw [← det_cof3, ← e] at this
  exact this.mono (ε := 1 / 2 ^ 127) le_rfl (by norm_num)

/-- the reciprocal of the determinant -/
theorem recip_err {D D' P : ℚ} (hD : 1 / 2 ^ 40 ≤ |D|) (hP : |D| ≤ P) (hP' : P ≤ 2 ^ 51)
    (hK : P ≤ 2 ^ 20 * |D|) (h : |D' - D| ≤ ((1 + u24) ^ 5 - 1) * P + 1 / 2 ^ 127) :
    ∃ w, FP.div binary32 (.fin 1) (.fin D') = .fin w ∧
      |w - 1 / D| ≤ 44 / 5 * (P / |D| / 2 ^ 24) * (1 / |D|) := by
  have h5 : (1 + u24) ^ 5 - 1 ≤ 501 / 100 / 2 ^ 24 := by norm_num
  have hP0 : 0 ≤ P := (abs_nonneg _).trans hP
  have hDp : 0 < |D| := lt_of_lt_of_le (by norm_num) hD
  have hD0 : D ≠ 0 := abs_pos.1 hDp
  have e1 : |D' - D| ≤ 502 / 100 / 2 ^ 24 * P := by
    have := mul_le_mul_of_nonneg_right h5 hP0
    norm_num at this hD h ⊢
    linarith
  have e2 : |D' - D| ≤ 314 / 1000 * |D| := by
    norm_num at e1 hK ⊢
    linarith
  have e3 : 686 / 1000 * |D| ≤ |D'| := by
    have := abs_sub_abs_le_abs_sub D D'
    rw [abs_sub_comm] at this
    linarith
  have hDp' : 0 < |D'| := by linarith
  have hD0' : D' ≠ 0 := abs_pos.1 hDp'
  set R := 1 / |D| with hR
  have hR0 : 0 < R := by positivity
  have hR1 : R * |D| = 1 := by rw [hR]; field_simp
  have hRle : R ≤ 2 ^ 40 := by
    rw [hR, div_le_iff₀ hDp]
    norm_num at hD ⊢
    linarith
  have hRge : 1 / 2 ^ 51 ≤ R := by
    rw [hR]
    exact one_div_le_one_div_of_le hDp (hP.trans hP')
  have e4 : |1 / D'| ≤ 1458 / 1000 * R := by
    rw [abs_div, abs_one, div_le_iff₀ hDp']
    have := mul_le_mul_of_nonneg_left e3 hR0.le
    nlinarith
  have e5 : |1 / D' - 1 / D| ≤ 732 / 100 * (P * R / 2 ^ 24) * R := by
    rw [show 1 / D' - 1 / D = (D - D') * (1 / D') * (1 / D) by field_simp, abs_mul, abs_mul,
      abs_sub_comm, show |1 / D| = R by rw [abs_div, abs_one]]
    have t := mul_le_mul e1 e4 (abs_nonneg _) (by positivity)
    refine (mul_le_mul_of_nonneg_right t hR0.le).trans ?_
    have : 0 ≤ P * R * R := by positivity
    norm_num
    linarith
  have hfin : |1 / D'| ≤ 2 ^ 127 := by
    norm_num at hRle ⊢
    norm_num at e4
    linarith
  refine ⟨binary32.round (1 / D'), ?_, ?_⟩
  · show (if D' = 0 then _ else FP.ofRat binary32 (1 / D')) = _
    rw [if_neg hD0', b32_ofRat hfin]
  · have c := b32_std (1 / D')
    have c1 := abs_sub_le (binary32.round (1 / D')) (1 / D') (1 / D)
    have hPR : 1 ≤ P * R := by
      have := mul_le_mul_of_nonneg_right hP hR0.le
      linarith
    have hPRR := mul_le_mul_of_nonneg_right hPR hR0.le
    rw [show P / |D| = P * R by rw [hR]; ring]
    rw [show 44 / 5 * (P * R / 2 ^ 24) * R = 44 / 5 / 2 ^ 24 * (P * R * R) by ring]
    rw [show 732 / 100 * (P * R / 2 ^ 24) * R = 732 / 100 / 2 ^ 24 * (P * R * R) by ring] at e5
    clear_value R
    generalize |1 / D'| = x at *
    generalize P * R * R = y at *
    generalize |binary32.round (1 / D') - 1 / D'| = z at *
    generalize |1 / D' - 1 / D| = z' at *
    norm_num at c c1 e4 e5 hRge ⊢
    linarith

include hC in
/-- an entry of the computed inverse -/
theorem inverse_err (hD : 1 / 2 ^ 40 ≤ |C.det|) (hK : absDet C ≤ 2 ^ 20 * |C.det|) {d : FP}
    (h : IsDet3F (finMat C) d) (i j : Fin 3) :
    ∃ a, inverse3F (finMat C) d i j = .fin a ∧
      |a - C⁻¹ i j| ≤ 14 / 2 ^ 24 * cancellation C * (absCofactor C j i / |C.det|) + 1 / 2 ^ 100 := by
  obtain ⟨-, D', rfl, hD'⟩ := det_maj hC h
  obtain ⟨w, hw, ew⟩ := recip_err hD (abs_det_le C) (absDet_le hC) hK hD'
  obtain ⟨hc, c', hc', ec⟩ := cofactor_maj hC j i
  have hDp : 0 < |C.det| := lt_of_lt_of_le (by norm_num) hD
  have hpc := absCofactor_le hC j i
  have hpc0 := absCofactor_nonneg C j i
  have hK1 : 1 ≤ cancellation C := by
    unfold cancellation
    rw [one_le_div hDp]
    exact abs_det_le C
  have hK2 : cancellation C ≤ 2 ^ 20 := by
    unfold cancellation
    rwa [div_le_iff₀ hDp]
  change |w - 1 / C.det| ≤ 44 / 5 * (cancellation C / 2 ^ 24) * (1 / |C.det|) at ew
  have e2 : (1 + u24) ^ 2 - 1 ≤ 2003 / 1000 / 2 ^ 24 := by norm_num
  rw [inv_cof3]
  unfold inverse3F
  rw [hw, hc', div_eq_mul_one_div (cof3 C j i), div_eq_mul_one_div (absCofactor C j i)]
  have hR' : |1 / C.det| = 1 / |C.det| := by rw [abs_div, abs_one]
  have hR0 : 0 < 1 / |C.det| := by positivity
  have hRle : 1 / |C.det| ≤ 2 ^ 40 := by
    rw [div_le_iff₀ hDp]
    norm_num at hD ⊢
    linarith
  generalize 1 / |C.det| = R at *
  generalize 1 / C.det = V at *
  generalize cof3 C j i = c at *
  generalize absCofactor C j i = g at *
  generalize cancellation C = K at *
  clear hD hK hD' hc' hw h hDp hC
  have ec' : |c' - c| ≤ 2003 / 1000 / 2 ^ 24 * g + 1 / 2 ^ 148 :=
    ec.trans (by
      have := mul_le_mul_of_nonneg_right e2 hpc0
      linarith)
  have hKR := mul_le_mul_of_nonneg_right hK1 hR0.le
  have hKR2 := mul_le_mul_of_nonneg_right hK2 hR0.le
  have hwle : |w| ≤ 31 / 20 * R := by
    have := abs_sub_abs_le_abs_sub w V
    rw [hR'] at this
    rw [show 44 / 5 * (K / 2 ^ 24) * R = 44 / 5 / 2 ^ 24 * (K * R) by ring] at ew
    norm_num at ew hKR2 ⊢
    linarith
  have ez : |c' * w - c * V| ≤ 1192 / 100 / 2 ^ 24 * (K * (g * R)) + 1 / 2 ^ 107 := by
    rw [show c' * w - c * V = (c' - c) * w + c * (w - V) by ring]
    refine (abs_add_le _ _).trans ?_
    rw [abs_mul, abs_mul]
    have t1 := mul_le_mul ec' hwle (abs_nonneg _) ((abs_nonneg _).trans ec')
    have t2 := mul_le_mul hc ew (abs_nonneg _) hpc0
    have t0 : 0 ≤ g * R := by positivity
    have t3 : g * R ≤ K * (g * R) := le_mul_of_one_le_left t0 hK1
    have e : g * (44 / 5 * (K / 2 ^ 24) * R) = 44 / 5 / 2 ^ 24 * (K * (g * R)) := by ring
    have e' : (2003 / 1000 / 2 ^ 24 * g + 1 / 2 ^ 148) * (31 / 20 * R) =
      2003 / 1000 * (31 / 20) / 2 ^ 24 * (g * R) + 31 / 20 / 2 ^ 148 * R := by ring
    rw [e] at t2
    rw [e'] at t1
    generalize K * (g * R) = y at *
    generalize g * R = x at *
    norm_num at t1 t2 hRle ⊢
    linarith
  have hgR0 : 0 ≤ g * R := by positivity
  have t3 : g * R ≤ K * (g * R) := le_mul_of_one_le_left hgR0 hK1
  have t4 : K * (g * R) ≤ 2 ^ 20 * (g * R) := mul_le_mul_of_nonneg_right hK2 hgR0
  have hcV : |c * V| ≤ g * R := by
    rw [abs_mul, hR']
    exact mul_le_mul_of_nonneg_right hc hR0.le
  have hgR : g * R ≤ 2 ^ 33 * 2 ^ 40 := mul_le_mul hpc hRle hR0.le (by norm_num)
  rw [show 14 / 2 ^ 24 * K * (g * R) = 14 / 2 ^ 24 * (K * (g * R)) by ring]
  have hz := abs_sub_abs_le_abs_sub (c' * w) (c * V)
  have c1 := b32_std (c' * w)
  have c2 := abs_sub_le (binary32.round (c' * w)) (c' * w) (c * V)
  refine ⟨binary32.round (c' * w), b32_ofRat ?_, ?_⟩
  · generalize K * (g * R) = y at *
    generalize g * R = x at *
    generalize |c' * w| = z at *
    norm_num at ez t4 hgR ⊢
    linarith
  · generalize K * (g * R) = y at *
    generalize g * R = x at *
    generalize |c' * w| = z at *
    generalize |c * V| = z' at *
    generalize |c' * w - c * V| = z'' at *
    generalize |binary32.round (c' * w) - c' * w| = z3 at *
    clear ew t4 hKR2 hKR hwle ec ec' e2
    norm_num at ez t3 hgR c1 c2 ⊢
    linarith

/-! ### The quadratic form -/

theorem row_maj {A : Fin 3 → Fin 3 → ℚ} {d : Fin 3 → ℚ} {j : Fin 3} {v : FP}
    (hS : |d 0| * |A 0 j| + |d 1| * |A 1 j| + |d 2| * |A 2 j| ≤ 2 ^ 115)
    (h : SumsTo binary32 [FP.mul binary32 (.fin (d 0)) (.fin (A 0 j)),
      FP.mul binary32 (.fin (d 1)) (.fin (A 1 j)), FP.mul binary32 (.fin (d 2)) (.fin (A 2 j))] v) :
    Maj 3 (1 / 2 ^ 146) v (d 0 * A 0 j + d 1 * A 1 j + d 2 * A 2 j)
      (|d 0| * |A 0 j| + |d 1| * |A 1 j| + |d 2| * |A 2 j|) := by
  have p : ∀ i, 0 ≤ |d i| * |A i j| := fun i => by positivity
  have t : ∀ i, |d i| * |A i j| ≤ 2 ^ 115 → Maj 1 (1 / 2 ^ 150)
      (FP.mul binary32 (.fin (d i)) (.fin (A i j))) (d i * A i j) (|d i| * |A i j|) := fun i hi => by
    have := (Maj.exact (d i)).mul (γ := 1 / 2 ^ 150) (Maj.exact (A i j)) (by norm_num) (by norm_num)
      le_rfl le_rfl (hi.trans (by norm_num)) (by norm_num) (by norm_num)
    exact this
  have p0 := p 0
  have p1 := p 1
  have p2 := p 2
  have := Maj.sum3 (t 0 (by linarith)) (t 1 (by linarith)) (t 2 (by linarith)) h (by norm_num)
    (by norm_num) (by norm_num) (hS.trans (by norm_num))
  exact this.mono (ε := 1 / 2 ^ 146) le_rfl (by norm_num)

/-- the quadratic form with a given finite matrix -/
theorem form_maj {A : Fin 3 → Fin 3 → ℚ} {d : Fin 3 → ℚ} (hd : ∀ i, |d i| ≤ 2 ^ 30)
    (hA : ∀ j, |d 0| * |A 0 j| + |d 1| * |A 1 j| + |d 2| * |A 2 j| ≤ 2 ^ 115)
    (hS : ∑ j, ∑ i, |d i| * |A i j| * |d j| ≤ 2 ^ 115) {s : FP}
    (h : IsFormF (fun i j => .fin (A i j)) (fun i => .fin (d i)) s) :
    ∃ q, s = .fin q ∧ |q - ∑ j, ∑ i, d i * A i j * d j| ≤
      ((1 + u24) ^ 6 - 1) * (∑ j, ∑ i, |d i| * |A i j| * |d j|) + 1 / 2 ^ 111 := by
  obtain ⟨v, hv, hs⟩ := h
  have hS' : ∑ j, ∑ i, |d i| * |A i j| * |d j| =
      (|d 0| * |A 0 0| + |d 1| * |A 1 0| + |d 2| * |A 2 0|) * |d 0| +
      (|d 0| * |A 0 1| + |d 1| * |A 1 1| + |d 2| * |A 2 1|) * |d 1| +
      (|d 0| * |A 0 2| + |d 1| * |A 1 2| + |d 2| * |A 2 2|) * |d 2| := by
    simp only [Fin.sum_univ_three]
    ring
  have hQ : ∑ j, ∑ i, d i * A i j * d j =
      (d 0 * A 0 0 + d 1 * A 1 0 + d 2 * A 2 0) * d 0 +
      (d 0 * A 0 1 + d 1 * A 1 1 + d 2 * A 2 1) * d 1 +
      (d 0 * A 0 2 + d 1 * A 1 2 + d 2 * A 2 2) * d 2 := by
    simp only [Fin.sum_univ_three]
    ring
  rw [hS'] at hS ⊢
  rw [hQ]
  have r := fun j => row_maj (hA j) (hv j)
  have t : ∀ j, (|d 0| * |A 0 j| + |d 1| * |A 1 j| + |d 2| * |A 2 j|) * |d j| ≤ 2 ^ 120 →
      Maj 4 (1 / 2 ^ 114) (FP.mul binary32 (v j) (.fin (d j)))
      ((d 0 * A 0 j + d 1 * A 1 j + d 2 * A 2 j) * d j)
      ((|d 0| * |A 0 j| + |d 1| * |A 1 j| + |d 2| * |A 2 j|) * |d j|) := fun j hj => by
    have hg : 3 * (1 / 2 ^ 146 * |d j| +
        0 * (|d 0| * |A 0 j| + |d 1| * |A 1 j| + |d 2| * |A 2 j|)) + 2 * (1 / 2 ^ 146 * 0) + 1 / 2 ^ 150 ≤
        (1 / 2 ^ 114 : ℚ) := by
      have := hd j
      norm_num at this ⊢
      linarith
    have := (r j).mul (γ := 1 / 2 ^ 114) (Maj.exact (d j)) (by norm_num) (by norm_num)
      (by norm_num) le_rfl hj hg (by norm_num)
    exact this
  have p : ∀ j, 0 ≤ (|d 0| * |A 0 j| + |d 1| * |A 1 j| + |d 2| * |A 2 j|) * |d j| := fun j => by
    positivity
  have p0 := p 0
  have p1 := p 1
  have p2 := p 2
  have hS2 := hS.trans (show (2 : ℚ) ^ 115 ≤ 2 ^ 120 by norm_num)
  have := Maj.sum3 (t 0 (by linarith)) (t 1 (by linarith)) (t 2 (by linarith)) hs (by norm_num)
    (by norm_num) (by norm_num) hS2
  exact (this.mono (ε := 1 / 2 ^ 111) le_rfl (by norm_num)).2

theorem absForm_bound {C : Matrix (Fin 3) (Fin 3) ℚ} (d : Fin 3 → ℚ) :
    |mahalanobisSq C d| ≤ absMahalanobisSq C d := by
  unfold mahalanobisSq absMahalanobisSq
  refine (Finset.abs_sum_le_sum_abs _ _).trans (Finset.sum_le_sum fun i _ => ?_)
  refine (Finset.abs_sum_le_sum_abs _ _).trans (Finset.sum_le_sum fun j _ => ?_)
  rw [abs_mul, abs_mul, inv_cof3, abs_div]
  gcongr
  exact abs_cof3_le C j i

include hC in
/-- the computed squared distance -/
theorem square_err (hD : 1 / 2 ^ 40 ≤ |C.det|) (hK : absDet C ≤ 2 ^ 20 * |C.det|) {e : Fin 3 → ℚ}
    (he : ∀ i, |e i| ≤ 2 ^ 18) {d : FP} (h : IsDet3F (finMat C) d) {s : FP}
    (hs : IsFormF (inverse3F (finMat C) d) (fun i => .fin (e i)) s) :
    ∃ q, s = .fin q ∧ |q - mahalanobisSq C e| ≤
      26 / 2 ^ 24 * cancellation C * absMahalanobisSq C e + 1 / 2 ^ 59 := by
  choose A hA eA using inverse_err hC hD hK h
  have hDp : 0 < |C.det| := lt_of_lt_of_le (by norm_num) hD
  have hK1 : 1 ≤ cancellation C := by
    unfold cancellation
    rw [one_le_div hDp]
    exact abs_det_le C
  have hK2 : cancellation C ≤ 2 ^ 20 := by
    unfold cancellation
    rwa [div_le_iff₀ hDp]
  have hg0 : ∀ i j, 0 ≤ absCofactor C j i / |C.det| := fun i j =>
    div_nonneg (absCofactor_nonneg C j i) hDp.le
  have hgle : ∀ i j, absCofactor C j i / |C.det| ≤ 2 ^ 73 := fun i j => by
    rw [div_le_iff₀ hDp]
    have := absCofactor_le hC j i
    norm_num at this hD ⊢
    linarith
  have hAle : ∀ i j, |A i j| ≤ 15 / 8 * (absCofactor C j i / |C.det|) + 1 / 2 ^ 100 := fun i j => by
    have h1 := abs_sub_abs_le_abs_sub (A i j) (C⁻¹ i j)
    have h2 : |C⁻¹ i j| ≤ absCofactor C j i / |C.det| := by
      rw [inv_cof3, abs_div]
      exact div_le_div_of_nonneg_right (abs_cof3_le C j i) hDp.le
    have h3 := mul_le_mul_of_nonneg_right hK2 (hg0 i j)
    have h4 := eA i j
    rw [mul_assoc] at h4
    generalize cancellation C * (absCofactor C j i / |C.det|) = y at *
    generalize absCofactor C j i / |C.det| = x at *
    norm_num at h3 h4 ⊢
    linarith
  have hA2 : ∀ i j, |A i j| ≤ 2 ^ 74 := fun i j => by
    have h1 := hAle i j
    have h2 := hgle i j
    norm_num at h1 h2 ⊢
    linarith
  have hee : ∀ i j, |e i| * |e j| ≤ 2 ^ 36 := fun i j =>
    (mul_le_mul (he i) (he j) (abs_nonneg _) (by norm_num)).trans (by norm_num)
  have heA : ∀ i j, |e i| * |A i j| ≤ 2 ^ 92 := fun i j =>
    (mul_le_mul (he i) (hA2 i j) (abs_nonneg _) (by norm_num)).trans (by norm_num)
  have heAe : ∀ i j, |e i| * |A i j| * |e j| ≤ 2 ^ 110 := fun i j =>
    (mul_le_mul (heA i j) (he j) (abs_nonneg _) (by norm_num)).trans (by norm_num)
  have hS1 : ∑ j, ∑ i, |e i| * |A i j| * |e j| ≤ 15 / 8 * absMahalanobisSq C e + 1 / 2 ^ 60 := by
    have : ∑ j, ∑ i, |e i| * |A i j| * |e j| ≤
        ∑ j, ∑ i, (15 / 8 * (|e i| * (absCofactor C j i / |C.det|) * |e j|) + 2 ^ 36 / 2 ^ 100) := by
      refine Finset.sum_le_sum fun j _ => Finset.sum_le_sum fun i _ => ?_
      have h1 := mul_le_mul_of_nonneg_left (hAle i j)
        (mul_nonneg (abs_nonneg (e i)) (abs_nonneg (e j)))
      have h2 := hee i j
      have h3 : |e i| * |e j| * (15 / 8 * (absCofactor C j i / |C.det|) + 1 / 2 ^ 100) =
        15 / 8 * (|e i| * (absCofactor C j i / |C.det|) * |e j|) + |e i| * |e j| / 2 ^ 100 := by ring
      have h4 := div_le_div_of_nonneg_right h2 (show (0 : ℚ) ≤ 2 ^ 100 by norm_num)
      rw [h3] at h1
      rw [show |e i| * |A i j| * |e j| = |e i| * |e j| * |A i j| by ring]
      linarith
    refine this.trans ?_
    unfold absMahalanobisSq
    rw [Finset.sum_comm]
    simp only [Finset.sum_add_distrib, ← Finset.mul_sum, Finset.sum_const, Finset.card_univ,
      Fintype.card_fin, nsmul_eq_mul]
    norm_num
  have hS0 : ∑ j, ∑ i, |e i| * |A i j| * |e j| ≤ 2 ^ 115 := by
    have : ∑ j : Fin 3, ∑ i : Fin 3, |e i| * |A i j| * |e j| ≤ ∑ j : Fin 3, ∑ i : Fin 3, (2 : ℚ) ^ 110 :=
      Finset.sum_le_sum fun j _ => Finset.sum_le_sum fun i _ => heAe i j
    refine this.trans ?_
    simp only [Finset.sum_const, Finset.card_univ, Fintype.card_fin, nsmul_eq_mul]
    norm_num
  have hQ : |∑ j, ∑ i, e i * A i j * e j - mahalanobisSq C e| ≤
      14 / 2 ^ 24 * cancellation C * absMahalanobisSq C e + 1 / 2 ^ 60 := by
    unfold mahalanobisSq absMahalanobisSq
    rw [Finset.sum_comm, ← Finset.sum_sub_distrib, Finset.mul_sum]
    have : ∀ i, |∑ j, e i * A i j * e j - ∑ j, e i * C⁻¹ i j * e j| ≤
        14 / 2 ^ 24 * cancellation C * (∑ j, |e i| * (absCofactor C j i / |C.det|) * |e j|) +
          3 * (2 ^ 36 / 2 ^ 100) := fun i => by
      rw [← Finset.sum_sub_distrib, Finset.mul_sum]
      have : ∀ j, |e i * A i j * e j - e i * C⁻¹ i j * e j| ≤
          14 / 2 ^ 24 * cancellation C * (|e i| * (absCofactor C j i / |C.det|) * |e j|) +
            2 ^ 36 / 2 ^ 100 := fun j => by
        rw [show e i * A i j * e j - e i * C⁻¹ i j * e j = e i * e j * (A i j - C⁻¹ i j) by ring,
          abs_mul, abs_mul]
        refine (mul_le_mul_of_nonneg_left (eA i j) (by positivity)).trans ?_
        have h4 := div_le_div_of_nonneg_right (hee i j) (show (0 : ℚ) ≤ 2 ^ 100 by norm_num)
        have h3 : |e i| * |e j| * (14 / 2 ^ 24 * cancellation C * (absCofactor C j i / |C.det|) + 1 / 2 ^ 100) =
          14 / 2 ^ 24 * cancellation C * (|e i| * (absCofactor C j i / |C.det|) * |e j|) +
            |e i| * |e j| / 2 ^ 100 := by ring
        rw [h3]
        linarith
      refine (Finset.abs_sum_le_sum_abs _ _).trans ((Finset.sum_le_sum fun j _ => this j).trans ?_)
      rw [Finset.sum_add_distrib]
      simp only [Finset.sum_const, Finset.card_univ, Fintype.card_fin, nsmul_eq_mul]
      exact le_of_eq (by norm_num)
    refine (Finset.abs_sum_le_sum_abs _ _).trans ((Finset.sum_le_sum fun j _ => this j).trans ?_)
    rw [Finset.sum_add_distrib]
    simp only [Finset.sum_const, Finset.card_univ, Fintype.card_fin, nsmul_eq_mul]
    gcongr
    norm_num
  have hcols : ∀ j, |e 0| * |A 0 j| + |e 1| * |A 1 j| + |e 2| * |A 2 j| ≤ 2 ^ 115 := fun j => by
    refine (add_le_add (add_le_add (heA 0 j) (heA 1 j)) (heA 2 j)).trans (by norm_num)
  have hfm : inverse3F (finMat C) d = fun i j => FP.fin (A i j) := by
    funext i j
    exact hA i j
  rw [hfm] at hs
  obtain ⟨q, hq, eq⟩ := form_maj (fun i => (he i).trans (by norm_num)) hcols hS0 hs
  refine ⟨q, hq, ?_⟩
  have e6 : (1 + u24) ^ 6 - 1 ≤ 601 / 100 / 2 ^ 24 := by norm_num
  have c := abs_sub_le q (∑ j, ∑ i, e i * A i j * e j) (mahalanobisSq C e)
  have hT0 : 0 ≤ ∑ j, ∑ i, |e i| * |A i j| * |e j| :=
    Finset.sum_nonneg fun j _ => Finset.sum_nonneg fun i _ => by positivity
  have c2 := mul_le_mul e6 hS1 hT0 (by norm_num)
  have hM0 : 0 ≤ absMahalanobisSq C e := (abs_nonneg _).trans (absForm_bound e)
  have hKM := mul_le_mul_of_nonneg_right hK1 hM0
  rw [mul_assoc] at hQ ⊢
  clear eA hA hfm hs
  generalize cancellation C * absMahalanobisSq C e = y at *
  generalize absMahalanobisSq C e = x at *
  norm_num at c2 hQ eq hKM ⊢
  linarith

end Mot
