import Verif.Proofs.FloatSqrt
import Verif.Proofs.Cost
import Verif.Spec.Matching
import Mathlib.Tactic.Positivity
/-!
# Lemmas about the Euclidean score in floating-point arithmetic
-/

namespace Mot

open Spec

/-! ### No overflow, errors of single operations -/

theorem b32_std (x : ℚ) : |binary32.round x - x| ≤ |x| / 2 ^ 24 + 1 / 2 ^ 150 := by
  have h := binary32.round_std x
  have e1 : (2 : ℚ) ^ (-(binary32.prec : ℤ)) = 1 / 2 ^ 24 := by
    show (2 : ℚ) ^ (-((24 : ℕ) : ℤ)) = _
    rw [zpow_neg, zpow_natCast, one_div]
  have e2 : (2 : ℚ) ^ (binary32.emin - 1) = 1 / 2 ^ 150 := by
    show (2 : ℚ) ^ (-((150 : ℕ) : ℤ)) = _
    rw [zpow_neg, zpow_natCast, one_div]
  rw [e1, e2] at h
  linarith [show |x| / 2 ^ 24 = 1 / 2 ^ 24 * |x| by ring]

theorem b32_sqrt_std {q : ℚ} (hq : 0 ≤ q) :
    |(binary32.sqrt q : ℝ) - √(q : ℝ)| ≤ √(q : ℝ) / 2 ^ 24 + 1 / 2 ^ 150 := by
  have h := binary32.sqrt_std hq
  have e1 : (2 : ℝ) ^ (-(binary32.prec : ℤ)) = 1 / 2 ^ 24 := by
    show (2 : ℝ) ^ (-((24 : ℕ) : ℤ)) = _
    rw [zpow_neg, zpow_natCast, one_div]
  have e2 : (2 : ℝ) ^ (binary32.emin - 1) = 1 / 2 ^ 150 := by
    show (2 : ℝ) ^ (-((150 : ℕ) : ℤ)) = _
    rw [zpow_neg, zpow_natCast, one_div]
  rw [e1, e2] at h
  linarith [show √(q : ℝ) / 2 ^ 24 = 1 / 2 ^ 24 * √(q : ℝ) by ring]

theorem b32_emax : (2 : ℚ) ^ binary32.emax = 2 ^ 128 := by
  show (2 : ℚ) ^ ((128 : ℕ) : ℤ) = _
  rw [zpow_natCast]

theorem b32_ofRat {x : ℚ} (hx : |x| ≤ 2 ^ 127) : FP.ofRat binary32 x = .fin (binary32.round x) := by
  refine if_pos ?_
  rw [b32_emax]
  have h1 := b32_std x
  have h2 : |binary32.round x| ≤ |binary32.round x - x| + |x| := by
    have := abs_add_le (binary32.round x - x) x
    simpa using this
  have h3 : (|x| : ℚ) / 2 ^ 24 ≤ 2 ^ 103 := by
    rw [div_le_iff₀ (by positivity)]
    exact hx.trans (by norm_num)
  have h4 : (1 : ℚ) / 2 ^ 150 ≤ 1 := by norm_num
  have h5 : (2 : ℚ) ^ 103 + 1 + 2 ^ 127 < 2 ^ 128 := by norm_num
  linarith

/-! ### Three-dimensional norm -/

/-- length of a vector -/
noncomputable def norm3 (a b c : ℝ) : ℝ := √(a ^ 2 + b ^ 2 + c ^ 2)

theorem norm3_nonneg (a b c : ℝ) : 0 ≤ norm3 a b c := Real.sqrt_nonneg _

theorem norm3_sq (a b c : ℝ) : norm3 a b c ^ 2 = a ^ 2 + b ^ 2 + c ^ 2 :=
  Real.sq_sqrt (by positivity)

theorem norm3_add (a b c x y z : ℝ) :
    norm3 (a + x) (b + y) (c + z) ≤ norm3 a b c + norm3 x y z := by
  have h1 := norm3_nonneg a b c
  have h2 := norm3_nonneg x y z
  have h3 := norm3_sq a b c
  have h4 := norm3_sq x y z
  refine Real.sqrt_le_iff.2 ⟨by positivity, ?_⟩
  have key : a * x + b * y + c * z ≤ norm3 a b c * norm3 x y z := by
    refine (abs_le_of_sq_le_sq' ?_ (by positivity)).2
    rw [mul_pow, h3, h4]
    nlinarith [sq_nonneg (a * y - b * x), sq_nonneg (a * z - c * x), sq_nonneg (b * z - c * y)]
  nlinarith

theorem norm3_mono {a b c x y z : ℝ} (h1 : |a| ≤ x) (h2 : |b| ≤ y) (h3 : |c| ≤ z) :
    norm3 a b c ≤ norm3 x y z := by
  apply Real.sqrt_le_sqrt
  have e1 := sq_le_sq' (by linarith [neg_abs_le a]) ((le_abs_self a).trans h1)
  have e2 := sq_le_sq' (by linarith [neg_abs_le b]) ((le_abs_self b).trans h2)
  have e3 := sq_le_sq' (by linarith [neg_abs_le c]) ((le_abs_self c).trans h3)
  linarith

theorem norm3_abs (a b c : ℝ) : norm3 |a| |b| |c| = norm3 a b c := by
  unfold norm3; simp only [sq_abs]

theorem norm3_smul {u : ℝ} (hu : 0 ≤ u) (a b c : ℝ) :
    norm3 (u * a) (u * b) (u * c) = u * norm3 a b c := by
  unfold norm3
  rw [show (u * a) ^ 2 + (u * b) ^ 2 + (u * c) ^ 2 = u ^ 2 * (a ^ 2 + b ^ 2 + c ^ 2) by ring,
    Real.sqrt_mul (sq_nonneg u), Real.sqrt_sq hu]

theorem norm3_diag {δ : ℝ} (h : 0 ≤ δ) : norm3 δ δ δ ≤ 7 / 4 * δ :=
  Real.sqrt_le_iff.2 ⟨by positivity, by nlinarith [sq_nonneg δ]⟩

/-- vectors that differ little have nearly the same length -/
theorem norm3_perturb {a b c x y z u δ : ℝ} (hu : 0 ≤ u) (hδ : 0 ≤ δ)
    (h1 : |x - a| ≤ u * |a| + δ) (h2 : |y - b| ≤ u * |b| + δ) (h3 : |z - c| ≤ u * |c| + δ) :
    |norm3 x y z - norm3 a b c| ≤ u * norm3 a b c + 7 / 4 * δ := by
  have e : norm3 (x - a) (y - b) (z - c) ≤ u * norm3 a b c + 7 / 4 * δ := by
    refine (norm3_mono h1 h2 h3).trans ((norm3_add _ _ _ _ _ _).trans ?_)
    rw [norm3_smul hu, norm3_abs]
    linarith [norm3_diag hδ]
  have t1 := norm3_add a b c (x - a) (y - b) (z - c)
  have t2 := norm3_add x y z (a - x) (b - y) (c - z)
  simp only [add_sub_cancel] at t1 t2
  have e' : norm3 (a - x) (b - y) (c - z) = norm3 (x - a) (y - b) (z - c) := by
    rw [← norm3_abs, abs_sub_comm a, abs_sub_comm b, abs_sub_comm c, norm3_abs]
  rw [abs_le]
  constructor <;> linarith

/-! ### Error of the whole expression -/

/-- rounded sum of rounded squares, square root -/
theorem root_err {x y z s₁ s₂ s₃ t w r : ℝ}
    (h1 : |s₁ - x ^ 2| ≤ x ^ 2 / 2 ^ 24 + 1 / 2 ^ 150)
    (h2 : |s₂ - y ^ 2| ≤ y ^ 2 / 2 ^ 24 + 1 / 2 ^ 150)
    (h3 : |s₃ - z ^ 2| ≤ z ^ 2 / 2 ^ 24 + 1 / 2 ^ 150)
    (p1 : 0 ≤ s₁) (p2 : 0 ≤ s₂) (p3 : 0 ≤ s₃)
    (ht : |t - (s₁ + s₂)| ≤ |s₁ + s₂| / 2 ^ 24 + 1 / 2 ^ 150) (pt : 0 ≤ t)
    (hw : |w - (t + s₃)| ≤ |t + s₃| / 2 ^ 24 + 1 / 2 ^ 150) (pw : 0 ≤ w)
    (hr : |r - √w| ≤ √w / 2 ^ 24 + 1 / 2 ^ 150) :
    |r - norm3 x y z| ≤ 7 / 2 / 2 ^ 24 * norm3 x y z + 1 / 2 ^ 70 := by
  have hN := norm3_nonneg x y z
  have hN2 := norm3_sq x y z
  generalize norm3 x y z = N at *
  rw [abs_of_nonneg (add_nonneg p1 p2)] at ht
  rw [abs_of_nonneg (add_nonneg pt p3)] at hw
  obtain ⟨a1, b1⟩ := abs_le.1 h1
  obtain ⟨a2, b2⟩ := abs_le.1 h2
  obtain ⟨a3, b3⟩ := abs_le.1 h3
  obtain ⟨at', bt⟩ := abs_le.1 ht
  obtain ⟨aw, bw⟩ := abs_le.1 hw
  have qx := sq_nonneg x
  have qy := sq_nonneg y
  have qz := sq_nonneg z
  have c2 : (1 / 2 ^ 73 : ℝ) ^ 2 = 16 / 2 ^ 150 := by norm_num
  have wup : w ≤ (1 + 2 / 2 ^ 24) ^ 2 * N ^ 2 + 16 / 2 ^ 150 := by
    rw [hN2]
    norm_num at *
    linarith
  have wlo : (1 - 2 / 2 ^ 24) ^ 2 * N ^ 2 - 16 / 2 ^ 150 ≤ w := by
    rw [hN2]
    norm_num at *
    linarith
  have up : √w ≤ (1 + 2 / 2 ^ 24) * N + 1 / 2 ^ 73 := by
    refine Real.sqrt_le_iff.2 ⟨by positivity, wup.trans ?_⟩
    have : 0 ≤ (1 + 2 / 2 ^ 24) * N * (1 / 2 ^ 73) := by positivity
    rw [← c2]
    nlinarith
  have lo : (1 - 2 / 2 ^ 24) * N - 1 / 2 ^ 73 ≤ √w := by
    rcases le_total ((1 - 2 / 2 ^ 24) * N) (1 / 2 ^ 73) with h | h
    · exact (sub_nonpos.2 h).trans (Real.sqrt_nonneg _)
    · refine Real.le_sqrt_of_sq_le (le_trans ?_ wlo)
      rw [← c2]
      nlinarith
  have hs := Real.sqrt_nonneg w
  generalize √w = S at *
  obtain ⟨ar, br⟩ := abs_le.1 hr
  rw [abs_le]
  clear wup wlo c2 hN2 qx qy qz a1 b1 a2 b2 a3 b3 at' bt aw bw h1 h2 h3 ht hw hr
  constructor
  · norm_num at *; linarith
  · norm_num at *; linarith

/-- difference of two coordinates after conversion to `float` -/
def diffQ (a b : ℚ) : ℚ := binary32.round (binary32.round a - binary32.round b)

section
variable {M : ℚ} (hM : 1 ≤ M) (hM' : M ≤ 2 ^ 60)

include hM' in
theorem conv_fin {a : ℚ} (ha : |a| ≤ M) : FP.conv binary32 (.fin a) = .fin (binary32.round a) :=
  b32_ofRat (ha.trans (hM'.trans (by norm_num)))

theorem abs_b32_le {a : ℚ} (ha : |a| ≤ M) : |binary32.round a - a| ≤ M / 2 ^ 24 + 1 / 2 ^ 150 :=
  (b32_std a).trans (by gcongr)

include hM in
theorem diff_err {a b : ℚ} (ha : |a| ≤ M) (hb : |b| ≤ M) :
    |diffQ a b - (a - b)| ≤ |a - b| / 2 ^ 24 + 201 / 100 / 2 ^ 24 * M := by
  have h1 := abs_b32_le ha
  have h2 := abs_b32_le hb
  have h3 := b32_std (binary32.round a - binary32.round b)
  have h4 : |(binary32.round a - binary32.round b) - (a - b)| ≤
      2 * (M / 2 ^ 24 + 1 / 2 ^ 150) := by
    have := abs_sub (binary32.round a - a) (binary32.round b - b)
    rw [show binary32.round a - binary32.round b - (a - b) =
      binary32.round a - a - (binary32.round b - b) by ring]
    linarith
  have h5 : |binary32.round a - binary32.round b| ≤ |a - b| + 2 * (M / 2 ^ 24 + 1 / 2 ^ 150) := by
    have := abs_add_le ((binary32.round a - binary32.round b) - (a - b)) (a - b)
    rw [sub_add_cancel] at this
    linarith
  have h6 : |diffQ a b - (a - b)| ≤ |diffQ a b - (binary32.round a - binary32.round b)| +
      |(binary32.round a - binary32.round b) - (a - b)| := by
    have := abs_add_le (diffQ a b - (binary32.round a - binary32.round b))
      ((binary32.round a - binary32.round b) - (a - b))
    rwa [sub_add_sub_cancel] at this
  change |diffQ a b - (binary32.round a - binary32.round b)| ≤ _ at h3
  generalize |diffQ a b - (a - b)| = A at *
  generalize |diffQ a b - (binary32.round a - binary32.round b)| = B at *
  generalize |(binary32.round a - binary32.round b) - (a - b)| = C at *
  generalize |a - b| = D at *
  generalize |binary32.round a - binary32.round b| = E at *
  norm_num at *
  linarith

include hM in
theorem diff_le {a b : ℚ} (ha : |a| ≤ M) (hb : |b| ≤ M) : |diffQ a b| ≤ 3 * M := by
  have h := diff_err hM ha hb
  have h1 : |a - b| ≤ 2 * M := (abs_sub a b).trans (by linarith)
  have h2 := abs_add_le (diffQ a b - (a - b)) (a - b)
  rw [sub_add_cancel] at h2
  norm_num at *
  linarith

include hM' in
theorem sub_fin {a b : ℚ} (ha : |a| ≤ M) (hb : |b| ≤ M) :
    FP.sub binary32 (FP.conv binary32 (.fin a)) (FP.conv binary32 (.fin b)) = .fin (diffQ a b) := by
  rw [conv_fin hM' ha, conv_fin hM' hb]
  refine b32_ofRat ?_
  have h1 := abs_b32_le ha
  have h2 := abs_b32_le hb
  have e1 := abs_add_le (binary32.round a - a) a
  have e2 := abs_add_le (binary32.round b - b) b
  have e3 := abs_sub (binary32.round a) (binary32.round b)
  rw [sub_add_cancel] at e1 e2
  norm_num at *
  linarith

include hM' in
theorem sq_fin {d : ℚ} (hd : |d| ≤ 3 * M) :
    FP.mul binary32 (.fin d) (.fin d) = .fin (binary32.round (d * d)) ∧
    0 ≤ binary32.round (d * d) ∧ binary32.round (d * d) ≤ 10 * 2 ^ 120 ∧
    |binary32.round (d * d) - d ^ 2| ≤ d ^ 2 / 2 ^ 24 + 1 / 2 ^ 150 := by
  have hsq : d * d ≤ 9 * 2 ^ 120 := by
    rw [← abs_mul_abs_self d]
    have h0 := abs_nonneg d
    have h1 : |d| ≤ 3 * 2 ^ 60 := hd.trans (by linarith)
    calc |d| * |d| ≤ (3 * 2 ^ 60) * (3 * 2 ^ 60) := mul_le_mul h1 h1 h0 (by positivity)
      _ = 9 * 2 ^ 120 := by norm_num
  have h0 := mul_self_nonneg d
  have hs := b32_std (d * d)
  rw [abs_of_nonneg h0] at hs
  refine ⟨b32_ofRat ?_, binary32.round_nonneg h0, ?_, by rw [sq]; exact hs⟩
  · rw [abs_of_nonneg h0]; norm_num at *; linarith
  · have := (abs_le.1 hs).2
    norm_num at *
    linarith

end

theorem cast_err {a b c : ℚ} (h : |a - b| ≤ c / 2 ^ 24 + 1 / 2 ^ 150) :
    |(a : ℝ) - (b : ℝ)| ≤ (c : ℝ) / 2 ^ 24 + 1 / 2 ^ 150 := by
  have h' : ((|a - b| : ℚ) : ℝ) ≤ ((c / 2 ^ 24 + 1 / 2 ^ 150 : ℚ) : ℝ) := Rat.cast_le.2 h
  push_cast at h'
  exact h'

/-- the computed score of two finite poses -/
def scoreQ (a b : Fin 3 → ℚ) : ℚ :=
  let s i := binary32.round (diffQ (a i) (b i) * diffQ (a i) (b i))
  binary32.sqrt (binary32.round (binary32.round (s 0 + s 1) + s 2))

theorem euclidF_fin {M : ℚ} (hM : 1 ≤ M) (hM' : M ≤ 2 ^ 60) {a b : Fin 3 → ℚ}
    (ha : ∀ i, |a i| ≤ M) (hb : ∀ i, |b i| ≤ M) :
    euclidF ⟨.fin (a 0), .fin (a 1), .fin (a 2)⟩ ⟨.fin (b 0), .fin (b 1), .fin (b 2)⟩ =
      .fin (scoreQ a b) ∧ 0 ≤ scoreQ a b ∧
    |(scoreQ a b : ℝ) - √(((a 0 - b 0 : ℚ) : ℝ) ^ 2 + ((a 1 - b 1 : ℚ) : ℝ) ^ 2 +
        ((a 2 - b 2 : ℚ) : ℝ) ^ 2)| ≤
      M / 2 ^ 22 + √(((a 0 - b 0 : ℚ) : ℝ) ^ 2 + ((a 1 - b 1 : ℚ) : ℝ) ^ 2 +
        ((a 2 - b 2 : ℚ) : ℝ) ^ 2) / 2 ^ 21 := by
  have hsub := fun i => sub_fin hM' (ha i) (hb i)
  have herr := fun i => diff_err hM (ha i) (hb i)
  have hle := fun i => diff_le hM (ha i) (hb i)
  have hsq := fun i => sq_fin hM' (hle i)
  have e : euclidF ⟨.fin (a 0), .fin (a 1), .fin (a 2)⟩ ⟨.fin (b 0), .fin (b 1), .fin (b 2)⟩ =
      FP.sqrt binary32 (dot3 (.fin (diffQ (a 0) (b 0))) (.fin (diffQ (a 1) (b 1)))
        (.fin (diffQ (a 2) (b 2)))) := by
    rw [← hsub 0, ← hsub 1, ← hsub 2]; rfl
  obtain ⟨m0, p0, l0, r0⟩ := hsq 0
  obtain ⟨m1, p1, l1, r1⟩ := hsq 1
  obtain ⟨m2, p2, l2, r2⟩ := hsq 2
  have x0 := herr 0
  have x1 := herr 1
  have x2 := herr 2
  have hdef : scoreQ a b = binary32.sqrt (binary32.round (binary32.round
      (binary32.round (diffQ (a 0) (b 0) * diffQ (a 0) (b 0)) +
        binary32.round (diffQ (a 1) (b 1) * diffQ (a 1) (b 1))) +
      binary32.round (diffQ (a 2) (b 2) * diffQ (a 2) (b 2)))) := rfl
  rw [e, hdef]
  unfold dot3
  rw [m0, m1, m2]
  clear hsub herr hle hsq e m0 m1 m2 hdef
  generalize diffQ (a 0) (b 0) = d0 at *
  generalize diffQ (a 1) (b 1) = d1 at *
  generalize diffQ (a 2) (b 2) = d2 at *
  generalize binary32.round (d0 * d0) = s0 at *
  generalize binary32.round (d1 * d1) = s1 at *
  generalize binary32.round (d2 * d2) = s2 at *
  have ht := b32_std (s0 + s1)
  have pt := binary32.round_nonneg (add_nonneg p0 p1)
  have f1 : FP.add binary32 (.fin s0) (.fin s1) = .fin (binary32.round (s0 + s1)) := by
    refine b32_ofRat ?_
    rw [abs_of_nonneg (add_nonneg p0 p1)]
    norm_num at l0 l1 ⊢
    linarith
  have lt : binary32.round (s0 + s1) ≤ 21 * 2 ^ 120 := by
    have := (abs_le.1 ht).2
    rw [abs_of_nonneg (add_nonneg p0 p1)] at this
    norm_num at l0 l1 this ⊢
    linarith
  rw [f1]
  generalize binary32.round (s0 + s1) = t at *
  have hw := b32_std (t + s2)
  have pw := binary32.round_nonneg (add_nonneg pt p2)
  have f2 : FP.add binary32 (.fin t) (.fin s2) = .fin (binary32.round (t + s2)) := by
    refine b32_ofRat ?_
    rw [abs_of_nonneg (add_nonneg pt p2)]
    norm_num at lt l2 ⊢
    linarith
  rw [f2]
  generalize binary32.round (t + s2) = w at *
  have hr := b32_sqrt_std pw
  have hn := binary32.sqrt_nonneg pw
  refine ⟨if_neg (not_lt.2 pw), hn, ?_⟩
  have key := root_err (x := d0) (y := d1) (z := d2) (s₁ := s0) (s₂ := s1) (s₃ := s2)
    (t := t) (w := w) (r := binary32.sqrt w) (by simpa using cast_err r0) (by simpa using cast_err r1)
    (by simpa using cast_err r2) (by exact_mod_cast p0) (by exact_mod_cast p1) (by exact_mod_cast p2)
    (by simpa using cast_err ht) (by exact_mod_cast pt) (by simpa using cast_err hw) (by exact_mod_cast pw) hr
  have hMr : (1 : ℝ) ≤ M := by exact_mod_cast hM
  have cast : ∀ d c : ℚ, |d - c| ≤ |c| / 2 ^ 24 + 201 / 100 / 2 ^ 24 * M →
      |(d : ℝ) - (c : ℝ)| ≤ 1 / 2 ^ 24 * |(c : ℝ)| + 201 / 100 / 2 ^ 24 * M := by
    intro d c h
    have h' : ((|d - c| : ℚ) : ℝ) ≤ ((|c| / 2 ^ 24 + 201 / 100 / 2 ^ 24 * M : ℚ) : ℝ) :=
      Rat.cast_le.2 h
    push_cast at h'
    refine h'.trans (le_of_eq ?_)
    ring
  have pert := norm3_perturb (u := 1 / 2 ^ 24) (δ := 201 / 100 / 2 ^ 24 * M) (by positivity)
    (by positivity) (cast _ _ x0) (cast _ _ x1) (cast _ _ x2)
  change |_ - norm3 _ _ _| ≤ _ + norm3 _ _ _ / _
  have hD := norm3_nonneg ((a 0 - b 0 : ℚ) : ℝ) ((a 1 - b 1 : ℚ) : ℝ) ((a 2 - b 2 : ℚ) : ℝ)
  generalize norm3 ((a 0 - b 0 : ℚ) : ℝ) ((a 1 - b 1 : ℚ) : ℝ) ((a 2 - b 2 : ℚ) : ℝ) = D at *
  generalize norm3 (d0 : ℝ) d1 d2 = D' at *
  obtain ⟨k1, k2⟩ := abs_le.1 key
  obtain ⟨k3, k4⟩ := abs_le.1 pert
  clear key pert r0 r1 r2 x0 x1 x2 ht hw hr cast f1 f2 l0 l1 l2 lt
  rw [abs_le]
  constructor
  · norm_num at *; linarith
  · norm_num at *; linarith

/-! ### Symmetry -/

theorem ofRat_neg (f : Fmt) (x : ℚ) : FP.ofRat f (-x) = (FP.ofRat f x).neg := by
  unfold FP.ofRat
  rw [f.round_neg, abs_neg]
  by_cases h : |f.round x| < (2 : ℚ) ^ f.emax
  · rw [if_pos h, if_pos h]; rfl
  · rw [if_neg h, if_neg h]
    have hx : x ≠ 0 := by
      rintro rfl
      apply h
      rw [f.round_zero, abs_zero]
      exact Fmt.two_zpow_pos _
    show _ = FP.inf _
    congr 1
    rcases lt_or_gt_of_ne hx with h | h
    · simp [h, h.le]
    · simp [h, h.le]

theorem sub_swap (f : Fmt) (a b : FP) : FP.sub f b a = (FP.sub f a b).neg := by
  cases a with
  | nan => cases b <;> rfl
  | inf s => cases b with
    | nan => rfl
    | inf t =>
      show (if t = s then FP.nan else FP.inf t) = (if s = t then FP.nan else FP.inf s).neg
      revert s t; decide
    | fin q => rfl
  | fin p => cases b with
    | nan => rfl
    | inf t => show FP.inf t = FP.inf (!!t); rw [Bool.not_not]
    | fin q =>
      show FP.ofRat f (q - p) = (FP.ofRat f (p - q)).neg
      rw [← ofRat_neg, neg_sub]

theorem mul_neg_neg (f : Fmt) (a : FP) : FP.mul f a.neg a.neg = FP.mul f a a := by
  cases a with
  | nan => rfl
  | inf s => show FP.inf _ = FP.inf _; simp
  | fin q => show FP.ofRat f (-q * -q) = FP.ofRat f (q * q); rw [neg_mul_neg]

theorem euclidF_comm (s t : FPose) : euclidF s t = euclidF t s := by
  unfold euclidF dot3
  simp only
  rw [sub_swap binary32 s.toFloat.x, sub_swap binary32 s.toFloat.y, sub_swap binary32 s.toFloat.yaw,
    mul_neg_neg, mul_neg_neg, mul_neg_neg]

/-! ### NaN, range -/

theorem mul_nan (f : Fmt) (a : FP) : FP.mul f a .nan = .nan := by cases a <;> rfl
theorem sub_nan (f : Fmt) (a : FP) : FP.sub f a .nan = .nan := by cases a <;> rfl
theorem nan_sub (f : Fmt) (a : FP) : FP.sub f .nan a = .nan := by cases a <;> rfl
theorem add_nan (f : Fmt) (a : FP) : FP.add f a .nan = .nan := by cases a <;> rfl
theorem nan_add (f : Fmt) (a : FP) : FP.add f .nan a = .nan := by cases a <;> rfl

theorem dot3_nan {a b c : FP} (h : a = .nan ∨ b = .nan ∨ c = .nan) : dot3 a b c = .nan := by
  unfold dot3
  rcases h with rfl | rfl | rfl <;> simp only [mul_nan, add_nan, nan_add]

theorem ofRat_cases (f : Fmt) (x : ℚ) :
    (∃ s, FP.ofRat f x = .inf s) ∨ ∃ q, FP.ofRat f x = .fin q ∧ |q| < (2 : ℚ) ^ f.emax := by
  unfold FP.ofRat
  split
  · rename_i h; exact .inr ⟨_, rfl, h⟩
  · exact .inl ⟨_, rfl⟩

theorem add_cases (f : Fmt) {a b : FP} {q : ℚ} (h : FP.add f a b = .fin q) :
    |q| < (2 : ℚ) ^ f.emax := by
  cases a with
  | nan => cases b <;> cases h
  | inf s => cases b with
    | nan => cases h
    | inf t =>
      change (if s = t then FP.inf s else FP.nan) = FP.fin q at h
      split at h <;> cases h
    | fin _ => cases h
  | fin a => cases b with
    | nan => cases h
    | inf t => cases h
    | fin b =>
      change FP.ofRat f (a + b) = _ at h
      rcases ofRat_cases f (a + b) with ⟨s, hs⟩ | ⟨q', hq, hb⟩
      · rw [hs] at h; cases h
      · rw [hq] at h; cases h; exact hb

theorem euclidF_cases (s t : FPose) :
    euclidF s t = .nan ∨ euclidF s t = .inf false ∨
      ∃ q, euclidF s t = .fin q ∧ 0 ≤ q ∧ q ≤ fltMaxQ := by
  unfold euclidF
  simp only
  generalize hd : dot3 _ _ _ = w
  cases w with
  | nan => exact .inl rfl
  | inf n => cases n <;> simp [FP.sqrt]
  | fin q =>
    have hq := add_cases _ hd
    by_cases h0 : q < 0
    · exact .inl (if_pos h0)
    · refine .inr (.inr ⟨_, if_neg h0, binary32.sqrt_nonneg (not_lt.1 h0), ?_⟩)
      rw [b32_emax] at hq
      have hq' : (q : ℝ) ≤ 2 ^ 128 := by
        have : ((|q| : ℚ) : ℝ) < (((2 : ℚ) ^ 128 : ℚ) : ℝ) := Rat.cast_lt.2 hq
        push_cast at this
        exact (le_abs_self _).trans this.le
      have hs : √(q : ℝ) ≤ 2 ^ 64 :=
        Real.sqrt_le_iff.2 ⟨by positivity, hq'.trans (by norm_num)⟩
      have he := (abs_le.1 (b32_sqrt_std (not_lt.1 h0))).2
      have : (binary32.sqrt q : ℝ) ≤ (fltMaxQ : ℝ) := by
        unfold fltMaxQ
        push_cast
        norm_num at *
        linarith
      exact_mod_cast this

/-! ### Monotonicity -/

namespace Fmt

theorem round_mono_all (f : Fmt) (hf : 1 ≤ f.prec) {x y : ℚ} (h : x ≤ y) :
    f.round x ≤ f.round y := by
  rcases le_total 0 x with hx | hx
  · exact f.round_mono hf hx h
  · rcases le_total 0 y with hy | hy
    · have := f.round_nonneg (neg_nonneg.2 hx)
      rw [round_neg] at this
      linarith [f.round_nonneg hy]
    · have := f.round_mono hf (neg_nonneg.2 hy) (neg_le_neg h)
      rw [round_neg, round_neg] at this
      linarith

theorem sqrt_mono (f : Fmt) (hf : 2 ≤ f.prec) {p q : ℚ} (hp : 0 ≤ p) (h : p ≤ q) :
    f.sqrt p ≤ f.sqrt q := by
  rcases h.eq_or_lt with rfl | h
  · exact le_rfl
  by_contra hc
  push Not at hc
  obtain ⟨m, e, hcan, hval, hn⟩ := f.sqrt_nearestEven hf hp
  obtain ⟨m', e', hcan', hval', hn'⟩ := f.sqrt_nearestEven hf (hp.trans h.le)
  have h1 := (hn m' e' hcan').1
  have h2 := (hn' m e hcan).1
  have v1 : (m : ℝ) * 2 ^ e = (f.sqrt p : ℝ) := by rw [hval]; push_cast; rfl
  have v2 : (m' : ℝ) * 2 ^ e' = (f.sqrt q : ℝ) := by rw [hval']; push_cast; rfl
  rw [v2] at h1
  rw [v1] at h2
  have hc' : (f.sqrt q : ℝ) < f.sqrt p := by exact_mod_cast hc
  have hs : √(p : ℝ) < √(q : ℝ) := Real.sqrt_lt_sqrt (by exact_mod_cast hp) (by exact_mod_cast h)
  generalize (f.sqrt q : ℝ) = A at *
  generalize (f.sqrt p : ℝ) = B at *
  generalize √(p : ℝ) = x at *
  generalize √(q : ℝ) = y at *
  rcases abs_cases (B - x) with ⟨e1, _⟩ | ⟨e1, _⟩ <;>
  rcases abs_cases (A - x) with ⟨e2, _⟩ | ⟨e2, _⟩ <;>
  rcases abs_cases (A - y) with ⟨e3, _⟩ | ⟨e3, _⟩ <;>
  rcases abs_cases (B - y) with ⟨e4, _⟩ | ⟨e4, _⟩ <;> linarith

end Fmt

/-- the middle of three coordinates is nearer to the first than the last -/
theorem diff_mono {a b c : ℚ} (h : (a ≤ b ∧ b ≤ c) ∨ (c ≤ b ∧ b ≤ a)) :
    diffQ a b * diffQ a b ≤ diffQ a c * diffQ a c := by
  have hm : ∀ {x y : ℚ}, x ≤ y → binary32.round x ≤ binary32.round y :=
    binary32.round_mono_all (by decide)
  have h0 : ∀ {x : ℚ}, 0 ≤ x → 0 ≤ binary32.round x := binary32.round_nonneg
  rcases h with ⟨h1, h2⟩ | ⟨h1, h2⟩
  · have e1 := hm h1
    have e2 := hm h2
    have hb : diffQ a b = -binary32.round (binary32.round b - binary32.round a) := by
      rw [← binary32.round_neg, neg_sub]; rfl
    have hc : diffQ a c = -binary32.round (binary32.round c - binary32.round a) := by
      rw [← binary32.round_neg, neg_sub]; rfl
    rw [hb, hc, neg_mul_neg, neg_mul_neg]
    exact mul_self_le_mul_self (h0 (by linarith)) (hm (by linarith))
  · have e1 := hm h1
    have e2 := hm h2
    exact mul_self_le_mul_self (h0 (by linarith)) (hm (by linarith))

theorem scoreQ_mono {a b c : Fin 3 → ℚ}
    (h : ∀ i, (a i ≤ b i ∧ b i ≤ c i) ∨ (c i ≤ b i ∧ b i ≤ a i)) : scoreQ a b ≤ scoreQ a c := by
  have hm : ∀ {x y : ℚ}, x ≤ y → binary32.round x ≤ binary32.round y :=
    binary32.round_mono_all (by decide)
  have h0 : ∀ {x : ℚ}, 0 ≤ x → 0 ≤ binary32.round x := binary32.round_nonneg
  have s := fun i => hm (diff_mono (h i))
  have p := fun i => h0 (mul_self_nonneg (diffQ (a i) (b i)))
  refine binary32.sqrt_mono (by decide) (h0 (add_nonneg (h0 (add_nonneg (p 0) (p 1))) (p 2))) ?_
  exact hm (add_le_add (hm (add_le_add (s 0) (s 1))) (s 2))

end Mot
