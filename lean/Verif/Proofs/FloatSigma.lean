import Verif.Spec.FloatSigma
import Verif.Props.FloatLlt
import Verif.Props.FloatUt
import Verif.Props.FloatExactCtra
/-!
# Lemmas: the offsets of the sigma points as computed
-/

namespace Mot

open Matrix Spec

namespace SigmaF

/-- size of the computed scale of the sigma points -/
theorem spread_bounds {n : ℕ} (hn : n < 2 ^ 20) {Λ : ℚ} (h1 : 1 / 2 ^ 20 ≤ n + Λ) (h2 : n + Λ ≤ 2 ^ 20) :
    ∃ r w : ℚ, spreadF n (.fin Λ) = .fin r ∧ wiF n (.fin Λ) = .fin w ∧ |2 * w * r ^ 2 - 1| ≤ 5 / 2 ^ 24 ∧
      1 / 2 ^ 32 ≤ r ∧ r ≤ 2 ^ 21 ∧ |r ^ 2 - (n + Λ)| ≤ 32 / 10 / 2 ^ 24 * (n + Λ) := by
  have hn0 : (0 : ℚ) ≤ n := by positivity
  have hn' : (n : ℚ) ≤ 1048576 := by exact_mod_cast hn.le
  have hL : |Λ| ≤ 2 ^ 60 := by
    rw [abs_le]
    constructor <;> norm_num at h1 h2 ⊢ <;> linarith
  have hD : 1 / 2 ^ 60 ≤ n + Λ := le_trans (by norm_num) h1
  have hD0 : 0 ≤ n + Λ := le_trans (by norm_num) h1
  obtain ⟨r, w, e1, e2, e3⟩ := Props.C91_spread hn hL hD
  obtain ⟨d, hs, hd⟩ := scale_fin hn hL (by rwa [abs_of_nonneg hD0])
  rw [abs_of_nonneg hD0] at hd
  have hd' := abs_le.1 hd
  have hlo : 1 / 2 ^ 62 ≤ d := by norm_num at hd' h1 ⊢; linarith
  have hhi : d ≤ 2 ^ 41 := by norm_num at hd' h2 ⊢; linarith
  have hr : r = binary32.sqrt d := by
    have : spreadF n (.fin Λ) = .fin (binary32.sqrt d) := by
      unfold spreadF
      rw [hs]
      exact if_neg (not_lt.2 (le_trans (by norm_num) hlo))
    rw [e1] at this
    exact FP.fin.inj this
  obtain ⟨g1, g2, g3⟩ := LltF.root_acc hlo hhi
  rw [← hr] at g1 g2 g3
  refine ⟨r, w, e1, e2, ?_, g2, g3, ?_⟩
  · have : ((|2 * w * r ^ 2 - 1| : ℚ) : ℝ) ≤ ((5 / 2 ^ 24 : ℚ) : ℝ) := by push_cast; exact e3
    exact Rat.cast_le.1 this
  · have g := abs_le.1 g1
    rw [abs_le]
    constructor <;> norm_num at g hd' ⊢ <;> linarith

variable {n : ℕ}

/-- the entries of a row of the factor are no larger than the standard deviation -/
theorem row_le {P Q : Matrix (Fin n) (Fin n) ℚ} (hl : ∀ i, 1 / 2 ^ 40 ≤ P i i)
    (hQ : ∀ i j, |(real Q * (real Q)ᵀ) i j - real P i j| ≤ 1 / 2 ^ 20 * (√(real P i i) * √(real P j j))) (i j : Fin n) :
    |real Q i j| ≤ 101 / 100 * √(real P i i) := by
  have hp : (0 : ℝ) ≤ real P i i := Rat.cast_nonneg.2 (le_trans (by norm_num) (hl i))
  have h := (abs_le.1 (hQ i i)).2
  rw [Real.mul_self_sqrt hp, mul_apply] at h
  simp only [transpose_apply] at h
  have h1 : real Q i j * real Q i j ≤ ∑ l, real Q i l * real Q i l :=
    Finset.single_le_sum (f := fun l => real Q i l * real Q i l) (fun l _ => mul_self_nonneg _) (Finset.mem_univ j)
  refine abs_le_of_sq_le_sq ?_ (by positivity)
  rw [mul_pow, Real.sq_sqrt hp, sq]
  norm_num at h ⊢
  linarith

/-- a factor times the computed scale, rounded -/
theorem offset {P Q : Matrix (Fin n) (Fin n) ℚ} (hl : ∀ i, 1 / 2 ^ 40 ≤ P i i) (hh : ∀ i, P i i ≤ 2 ^ 40)
    (hQ : ∀ i j, |(real Q * (real Q)ᵀ) i j - real P i j| ≤ 1 / 2 ^ 20 * (√(real P i i) * √(real P j j))) {r : ℚ}
    (hr : 1 / 2 ^ 32 ≤ r) (hr' : r ≤ 2 ^ 21) (i j : Fin n) :
    FP.mul binary32 (.fin r) (finite Q i j) = .fin (binary32.round (r * Q i j)) ∧
      |((binary32.round (r * Q i j) : ℚ) : ℝ) - r * real Q i j| ≤ 102 / 100 / 2 ^ 24 * (r * √(real P i i)) := by
  have hq := row_le hl hQ i j
  have hsl : 1 / 2 ^ 20 ≤ √(real P i i) := by
    refine Real.le_sqrt_of_sq_le ?_
    have : ((1 / 2 ^ 40 : ℚ) : ℝ) ≤ real P i i := Rat.cast_le.2 (hl i)
    push_cast at this
    refine le_trans (le_of_eq ?_) this
    norm_num
  have hsh : √(real P i i) ≤ 2 ^ 20 := by
    refine Real.sqrt_le_iff.2 ⟨by norm_num, ?_⟩
    have : real P i i ≤ ((2 ^ 40 : ℚ) : ℝ) := Rat.cast_le.2 (hh i)
    push_cast at this
    refine this.trans (by norm_num)
  have hr0 : 0 < r := lt_of_lt_of_le (by norm_num) hr
  have hrr : (1 : ℝ) / 2 ^ 32 ≤ r := by
    have : ((1 / 2 ^ 32 : ℚ) : ℝ) ≤ (r : ℝ) := Rat.cast_le.2 hr
    push_cast at this
    exact this
  have hrr' : (r : ℝ) ≤ 2 ^ 21 := by
    have : (r : ℝ) ≤ ((2 ^ 21 : ℚ) : ℝ) := Rat.cast_le.2 hr'
    push_cast at this
    exact this
  have hrr0 : (0 : ℝ) < r := Rat.cast_pos.2 hr0
  have hsize : |(r : ℝ) * real Q i j| ≤ 101 / 100 * (r * √(real P i i)) := by
    rw [abs_mul, abs_of_pos hrr0]
    have := mul_le_mul_of_nonneg_left hq hrr0.le
    linarith
  have hbig : |r * Q i j| ≤ 2 ^ 100 := by
    have h1 : (r : ℝ) * √(real P i i) ≤ 2 ^ 21 * 2 ^ 20 := mul_le_mul hrr' hsh (Real.sqrt_nonneg _) (by norm_num)
    have : ((|r * Q i j| : ℚ) : ℝ) ≤ ((2 ^ 100 : ℚ) : ℝ) := by
      push_cast
      refine hsize.trans ?_
      norm_num at h1 ⊢
      linarith
    exact Rat.cast_le.1 this
  obtain ⟨e1, e2⟩ := LltF.prod_term hbig
  refine ⟨e1, ?_⟩
  have e3 : ((|binary32.round (r * Q i j) - r * Q i j| : ℚ) : ℝ) ≤ ((1 / 2 ^ 24 * |r * Q i j| + 1 / 2 ^ 150 : ℚ) : ℝ) :=
    Rat.cast_le.2 e2
  push_cast at e3
  refine e3.trans ?_
  have hη : (1 : ℝ) / 2 ^ 150 ≤ 1 / 2 ^ 90 * (r * √(real P i i)) := by
    have := mul_le_mul hrr hsl (by norm_num) hrr0.le
    have h2 := mul_le_mul_of_nonneg_left this (show (0 : ℝ) ≤ 1 / 2 ^ 90 by norm_num)
    refine le_trans ?_ h2
    norm_num
  have h0 : 0 ≤ (r : ℝ) * √(real P i i) := by positivity
  change |(r : ℝ) * (Q i j : ℝ)| ≤ _ at hsize
  norm_num at hη hsize ⊢
  linarith

/-- products of the offsets -/
theorem prod_err {x y a b s t : ℝ} (ht : 0 ≤ t) (hs : 0 ≤ s) (hx : |x| ≤ 101 / 100 * s) (hy : |y| ≤ 101 / 100 * t)
    (ha : |a - x| ≤ 102 / 100 / 2 ^ 24 * s) (hb : |b - y| ≤ 102 / 100 / 2 ^ 24 * t) :
    |a * b - x * y| ≤ 207 / 100 / 2 ^ 24 * (s * t) := by
  have e : a * b - x * y = x * (b - y) + (a - x) * y + (a - x) * (b - y) := by ring
  have h1 := mul_le_mul hx hb (abs_nonneg _) (by positivity)
  have h2 := mul_le_mul ha hy (abs_nonneg _) (by positivity)
  have h3 := mul_le_mul ha hb (abs_nonneg _) (by positivity)
  rw [e]
  have t1 := abs_add_le (x * (b - y) + (a - x) * y) ((a - x) * (b - y))
  have t2 := abs_add_le (x * (b - y)) ((a - x) * y)
  rw [abs_mul (a - x) (b - y)] at t1
  rw [abs_mul x, abs_mul (a - x)] at t2
  have hst : 0 ≤ s * t := mul_nonneg hs ht
  norm_num at h1 h2 h3 ⊢
  linarith

/-- the offsets carry the covariance -/
theorem offsets_cov (hn : n ≤ 6) {P Q : Matrix (Fin n) (Fin n) ℚ} (hl : ∀ i, 1 / 2 ^ 40 ≤ P i i) (hh : ∀ i, P i i ≤ 2 ^ 40)
    (hP : ∀ i j, |real P i j| ≤ √(real P i i) * √(real P j j))
    (hQ : ∀ i j, |(real Q * (real Q)ᵀ) i j - real P i j| ≤ 1 / 2 ^ 20 * (√(real P i i) * √(real P j j))) {r : ℚ}
    (hr : 1 / 2 ^ 32 ≤ r) (hr' : r ≤ 2 ^ 21) {c : ℝ} (hc : |c * r ^ 2 - 1| ≤ 5 / 2 ^ 24) (i k : Fin n) :
    |c * ∑ j, ((binary32.round (r * Q i j) : ℚ) : ℝ) * ((binary32.round (r * Q k j) : ℚ) : ℝ) - real P i k| ≤
      1 / 2 ^ 18 * (√(real P i i) * √(real P k k)) := by
  have hr0 : (0 : ℝ) < r := Rat.cast_pos.2 (lt_of_lt_of_le (by norm_num) hr)
  set σ := √(real P i i) with hσ
  set ς := √(real P k k) with hς
  have hσ0 : 0 ≤ σ := Real.sqrt_nonneg _
  have hς0 : 0 ≤ ς := Real.sqrt_nonneg _
  have hc' := abs_le.1 hc
  have hc0 : 0 ≤ c * r ^ 2 := by norm_num at hc' ⊢; linarith
  have hcpos : 0 ≤ c := by
    by_contra hneg
    have : c * (r : ℝ) ^ 2 < 0 := mul_neg_of_neg_of_pos (not_le.1 hneg) (by positivity)
    linarith
  have key : ∀ j, |((binary32.round (r * Q i j) : ℚ) : ℝ) * ((binary32.round (r * Q k j) : ℚ) : ℝ) -
      (r * real Q i j) * (r * real Q k j)| ≤ 207 / 100 / 2 ^ 24 * ((r * σ) * (r * ς)) := by
    intro j
    have size : ∀ i, |(r : ℝ) * real Q i j| ≤ 101 / 100 * (r * √(real P i i)) := by
      intro i
      rw [abs_mul, abs_of_pos hr0]
      have := mul_le_mul_of_nonneg_left (row_le hl hQ i j) hr0.le
      linarith
    exact prod_err (by positivity) (by positivity) (size i) (size k) (offset hl hh hQ hr hr' i j).2 (offset hl hh hQ hr hr' k j).2
  have hsum : |∑ j, ((binary32.round (r * Q i j) : ℚ) : ℝ) * ((binary32.round (r * Q k j) : ℚ) : ℝ) -
      r ^ 2 * (real Q * (real Q)ᵀ) i k| ≤ 6 * (207 / 100 / 2 ^ 24 * ((r * σ) * (r * ς))) := by
    rw [mul_apply, Finset.mul_sum, ← Finset.sum_sub_distrib]
    refine (Finset.abs_sum_le_sum_abs _ _).trans ?_
    have h1 : ∀ j ∈ Finset.univ, |((binary32.round (r * Q i j) : ℚ) : ℝ) * ((binary32.round (r * Q k j) : ℚ) : ℝ) -
        (r : ℝ) ^ 2 * (real Q i j * (real Q)ᵀ j k)| ≤ 207 / 100 / 2 ^ 24 * ((r * σ) * (r * ς)) := by
      intro j _
      refine le_trans (le_of_eq ?_) (key j)
      rw [transpose_apply]
      congr 1
      ring
    refine (Finset.sum_le_card_nsmul _ _ _ h1).trans ?_
    rw [Finset.card_univ, Fintype.card_fin, nsmul_eq_mul]
    exact mul_le_mul_of_nonneg_right (by exact_mod_cast hn) (by positivity)
  set S := ∑ j, ((binary32.round (r * Q i j) : ℚ) : ℝ) * ((binary32.round (r * Q k j) : ℚ) : ℝ)
  set G := (real Q * (real Q)ᵀ) i k
  have e : c * S - real P i k = c * (S - r ^ 2 * G) + (c * r ^ 2) * (G - real P i k) + (c * r ^ 2 - 1) * real P i k := by ring
  have t1 : |c * (S - r ^ 2 * G)| ≤ (c * r ^ 2) * (6 * (207 / 100 / 2 ^ 24 * (σ * ς))) := by
    rw [abs_mul, abs_of_nonneg hcpos]
    refine (mul_le_mul_of_nonneg_left hsum hcpos).trans (le_of_eq ?_)
    ring
  have t2 : |(c * r ^ 2) * (G - real P i k)| ≤ (c * r ^ 2) * (1 / 2 ^ 20 * (σ * ς)) := by
    rw [abs_mul, abs_of_nonneg hc0]
    exact mul_le_mul_of_nonneg_left (hQ i k) hc0
  have t3 : |(c * r ^ 2 - 1) * real P i k| ≤ 5 / 2 ^ 24 * (σ * ς) := by
    rw [abs_mul]
    exact mul_le_mul hc (hP i k) (abs_nonneg _) (by norm_num)
  have hst : 0 ≤ σ * ς := mul_nonneg hσ0 hς0
  have hcs : (c * r ^ 2) * (σ * ς) ≤ 101 / 100 * (σ * ς) := mul_le_mul_of_nonneg_right (by norm_num at hc' ⊢; linarith) hst
  rw [e]
  have a1 := abs_add_le (c * (S - r ^ 2 * G) + (c * r ^ 2) * (G - real P i k)) ((c * r ^ 2 - 1) * real P i k)
  have a2 := abs_add_le (c * (S - r ^ 2 * G)) ((c * r ^ 2) * (G - real P i k))
  rw [show c * (r : ℝ) ^ 2 * (6 * (207 / 100 / 2 ^ 24 * (σ * ς))) = 6 * (207 / 100 / 2 ^ 24) * (c * r ^ 2 * (σ * ς)) by ring] at t1
  rw [show c * (r : ℝ) ^ 2 * (1 / 2 ^ 20 * (σ * ς)) = 1 / 2 ^ 20 * (c * r ^ 2 * (σ * ς)) by ring] at t2
  refine a1.trans ((add_le_add_left a2 _).trans ?_)
  generalize c * (r : ℝ) ^ 2 * (σ * ς) = u at *
  generalize |c * (S - r ^ 2 * G)| = w1 at *
  generalize |c * (r : ℝ) ^ 2 * (G - real P i k)| = w2 at *
  generalize |(c * (r : ℝ) ^ 2 - 1) * real P i k| = w3 at *
  norm_num at t1 t2 t3 hcs ⊢
  linarith

/-! ### covariance of components that the motion moves linearly -/

/-- a computed column of points against state plus and minus offsets -/
structure LinCol {n : ℕ} (v : ℚ) (d : Fin n → ℚ) (D ε : ℚ) (c : ℚ) (cp cm : Fin n → ℚ) : Prop where
  size : ∀ l, |d l| ≤ D
  zero : |c - v| ≤ ε
  plus : ∀ l, |cp l - (v + d l)| ≤ ε
  minus : ∀ l, |cm l - (v - d l)| ≤ ε

/-- the column -/
def colOf {n : ℕ} (c : ℚ) (cp cm : Fin n → ℚ) : List FP :=
  .fin c :: (List.finRange n).flatMap fun l => [.fin (cp l), .fin (cm l)]

theorem sum_flat {n : ℕ} (f g : Fin n → ℝ) : ((List.finRange n).flatMap fun l => [f l, g l]).sum = ∑ l, (f l + g l) := by
  rw [Fin.sum_univ_def]
  generalize List.finRange n = L
  induction L with
  | nil => rfl
  | cons l L ih => simp only [List.flatMap_cons, List.sum_append, ih, List.map_cons, List.sum_cons, List.sum_nil, add_zero]

theorem utMean_lin {n : ℕ} {Λ : ℝ} (hΛ : (n : ℝ) + Λ ≠ 0) (v : ℝ) (d : Fin n → ℝ) :
    utMean n Λ v ((List.finRange n).flatMap fun l => [v + d l, v - d l]) = v := by
  unfold utMean
  rw [sum_flat, div_eq_iff hΛ]
  simp only [add_add_sub_cancel, Finset.sum_add_distrib, Finset.sum_const, Finset.card_univ, Fintype.card_fin, nsmul_eq_mul]
  ring

theorem lin_cov {n : ℕ} (hn : 2 ≤ n) (hn' : n ≤ 100) {a b Λ : ℚ} (ha : |a| ≤ 2 ^ 14) (hb : |b| ≤ 2 ^ 28) (hL : |Λ| ≤ 2 ^ 20)
    (hD : 1 / 2 ^ 8 ≤ |n + Λ|) {v v' D D' ε ε' c c' : ℚ} {d d' cp cm cp' cm' : Fin n → ℚ} (h : LinCol v d D ε c cp cm)
    (h' : LinCol v' d' D' ε' c' cp' cm') (hB : |v| + D + ε ≤ 2 ^ 29) (hB' : |v'| + D' + ε' ≤ 2 ^ 29) {q q' M M' : ℚ}
    (hq : |q - v| ≤ M) (hq' : |q' - v'| ≤ M') (hM : D + (ε + M) ≤ 2 ^ 29) (hM' : D' + (ε' + M') ≤ 2 ^ 29) {p : FP}
    (hp : IsCovF (weightsF n (.fin a) (.fin b) (.fin Λ)).2 (colOf c cp cm) (colOf c' cp' cm') (.fin q) (.fin q') p) :
    ∃ r : ℚ, p = .fin r ∧ |(r : ℝ) - (∑ l, (d l : ℝ) * d' l) / (n + Λ)| ≤
      utCovCond n a b Λ * ((2 * n + 11) / 2 ^ 24 * ((D + (ε + M)) * (D' + (ε' + M'))) +
        2 * ((D + (ε + M)) * (D' + (ε' + M')) - D * D')) + 1 / 2 ^ 69 := by
  have hDp : (n : ℚ) + Λ ≠ 0 := abs_pos.1 (lt_of_lt_of_le (by norm_num) hD)
  have hDr : (n : ℝ) + (Λ : ℝ) ≠ 0 := by exact_mod_cast hDp
  let i0 : Fin n := ⟨0, by omega⟩
  let i1 : Fin n := ⟨1, by omega⟩
  have h10 : i1 ≠ i0 := fun e => absurd (Fin.val_eq_of_eq e) (by simp [i0, i1])
  let pick {α : Type} (x y : α) : Fin n → α := fun i => if i = i0 then x else y
  have p0 : ∀ {α : Type} (x y : α), pick x y i0 = x := fun x y => if_pos rfl
  have p1 : ∀ {α : Type} (x y : α), pick x y i1 = y := fun x y => if_neg h10
  let rows : List (Fin n → FP) := pick (.fin c) (.fin c') :: (List.finRange n).flatMap fun l =>
    [pick (.fin (cp l)) (.fin (cp' l)), pick (.fin (cm l)) (.fin (cm' l))]
  let Y0 : Fin n → ℝ := pick (v : ℝ) v'
  let Ys : List (Fin n → ℝ) := (List.finRange n).flatMap fun l =>
    [pick ((v : ℝ) + d l) (v' + d' l), pick ((v : ℝ) - d l) (v' - d' l)]
  have r0 : rows.map (· i0) = colOf c cp cm := by
    simp only [rows, colOf, List.map_cons, List.map_flatMap, p0, List.map_nil]
  have r1 : rows.map (· i1) = colOf c' cp' cm' := by
    simp only [rows, colOf, List.map_cons, List.map_flatMap, p1, List.map_nil]
  have y0 : Ys.map (· i0) = (List.finRange n).flatMap fun l => [(v : ℝ) + d l, v - d l] := by
    simp only [Ys, List.map_cons, List.map_flatMap, p0, List.map_nil]
  have y1 : Ys.map (· i1) = (List.finRange n).flatMap fun l => [(v' : ℝ) + d' l, v' - d' l] := by
    simp only [Ys, List.map_cons, List.map_flatMap, p1, List.map_nil]
  have m0 : utMean n Λ (Y0 i0) (Ys.map (· i0)) = v := by
    rw [y0, show Y0 i0 = v from p0 _ _]
    exact utMean_lin hDr _ fun l => (d l : ℝ)
  have m1 : utMean n Λ (Y0 i1) (Ys.map (· i1)) = v' := by
    rw [y1, show Y0 i1 = v' from p1 _ _]
    exact utMean_lin hDr _ fun l => (d' l : ℝ)
  have near : ∀ {x x' y y' : ℚ}, |x - y| ≤ ε → |x' - y'| ≤ ε' → |y| ≤ |v| + D → |y'| ≤ |v'| + D' →
      RowNear (pick (|v| + D + ε) (|v'| + D' + ε')) (pick (ε : ℝ) ε') (pick (.fin x) (.fin x')) (pick (y : ℝ) y') := by
    intro x x' y y' e e' s s' i
    by_cases hi : i = i0
    · rw [hi]
      simp only [p0]
      refine ⟨x, rfl, ?_, by exact_mod_cast e⟩
      have := abs_add_le (x - y) y
      rw [sub_add_cancel] at this
      linarith
    · have q1 : ∀ {α : Type} (x y : α), pick x y i = y := fun x y => if_neg hi
      simp only [q1]
      refine ⟨x', rfl, ?_, by exact_mod_cast e'⟩
      have := abs_add_le (x' - y') y'
      rw [sub_add_cancel] at this
      linarith
  have hD0 : 0 ≤ D := (abs_nonneg _).trans (h.size i0)
  have hD0' : 0 ≤ D' := (abs_nonneg _).trans (h'.size i0)
  have hrows : List.Forall₂ (RowNear (pick (|v| + D + ε) (|v'| + D' + ε')) (pick (ε : ℝ) ε')) rows (Y0 :: Ys) := by
    refine .cons (near h.zero h'.zero (by linarith) (by linarith)) (Props.forall₂_flatMap fun l _ => .cons ?_ (.cons ?_ .nil))
    · have := near (h.plus l) (h'.plus l) ((abs_add_le _ _).trans (by linarith [h.size l]))
        ((abs_add_le _ _).trans (by linarith [h'.size l]))
      push_cast at this
      exact this
    · have := near (h.minus l) (h'.minus l) ((abs_sub _ _).trans (by linarith [h.size l]))
        ((abs_sub _ _).trans (by linarith [h'.size l]))
      push_cast at this
      exact this
  have hlen : Ys.length = 2 * n := by
    rw [length_flatMap_pair, List.length_finRange]
  have hdev : ∀ Y ∈ Y0 :: Ys, |Y i0 - v| ≤ D ∧ |Y i1 - v'| ≤ D' := by
    intro Y hY
    have c1 : ∀ l, |(d l : ℝ)| ≤ D := fun l => by exact_mod_cast h.size l
    have c2 : ∀ l, |(d' l : ℝ)| ≤ D' := fun l => by exact_mod_cast h'.size l
    have z1 : (0 : ℝ) ≤ D := by exact_mod_cast hD0
    have z2 : (0 : ℝ) ≤ D' := by exact_mod_cast hD0'
    rcases List.mem_cons.1 hY with rfl | hY
    · rw [show Y0 i0 = v from p0 _ _, show Y0 i1 = v' from p1 _ _, sub_self, sub_self, abs_zero]
      exact ⟨z1, z2⟩
    · obtain ⟨l, -, hl⟩ := List.mem_flatMap.1 hY
      simp only [List.mem_cons, List.not_mem_nil, or_false] at hl
      rcases hl with rfl | rfl
      · rw [p0, p1, add_sub_cancel_left, add_sub_cancel_left]
        exact ⟨c1 l, c2 l⟩
      · rw [p0, p1, sub_sub_cancel_left, sub_sub_cancel_left, abs_neg, abs_neg]
        exact ⟨c1 l, c2 l⟩
  obtain ⟨r, hr, e⟩ := rows_cov (rows := rows) (Y0 := Y0) (Ys := Ys) (j := i0) (k := i1) (qj := q) (qk := q') (Mj := M) (Mk := M')
    (τj := ε + M) (τk := ε' + M') (Dj := D) (Dk := D') (by omega) hn' ha hb hL hD
    (fun i => by
      by_cases hi : i = i0
      · simp only [pick, if_pos hi]; exact hB
      · simp only [pick, if_neg hi]; exact hB') hlen hrows
    (by rw [m0]; exact_mod_cast hq) (by rw [m1]; exact_mod_cast hq') (by rw [p0]) (by rw [p1])
    (fun Y hY => by rw [m0]; exact (hdev Y hY).1) (fun Y hY => by rw [m1]; exact (hdev Y hY).2)
    (by exact_mod_cast hM) (by exact_mod_cast hM') (by rw [r0, r1]; exact hp)
  refine ⟨r, hr, ?_⟩
  have hcov : utCov n a b Λ (Y0 i0) (Ys.map (· i0)) (Y0 i1) (Ys.map (· i1)) = (∑ l, (d l : ℝ) * d' l) / (n + Λ) := by
    unfold utCov
    rw [m0, m1, show Y0 i0 = v from p0 _ _, show Y0 i1 = v' from p1 _ _, sub_self, zero_mul, mul_zero, zero_add, y0, y1]
    have : (List.zipWith (fun y z => (y - (v : ℝ)) * (z - v')) ((List.finRange n).flatMap fun l => [(v : ℝ) + d l, v - d l])
        ((List.finRange n).flatMap fun l => [(v' : ℝ) + d' l, v' - d' l])) =
        (List.finRange n).flatMap fun l => [(d l : ℝ) * d' l, d l * d' l] := by
      generalize List.finRange n = L
      induction L with
      | nil => rfl
      | cons l L ih =>
        simp only [List.flatMap_cons, List.cons_append, List.nil_append, List.zipWith_cons_cons, ih]
        rw [add_sub_cancel_left, add_sub_cancel_left, sub_sub_cancel_left, sub_sub_cancel_left, neg_mul_neg]
    rw [this, sum_flat]
    simp only [← two_mul, ← Finset.mul_sum]
    rw [mul_div_mul_left _ _ two_ne_zero]
  rw [hcov] at e
  exact e

/-- errors of a column of the size `S` with offsets of at most `3σ`, put together -/
theorem kept_bound {n : ℕ} (hn : n ≤ 6) {σ σ' S S' ε ε' M M' : ℚ} (hσ : 0 ≤ σ) (hσ' : 0 ≤ σ') (hS : 3 * σ ≤ S) (hS' : 3 * σ' ≤ S')
    (hSl : S ≤ 2 ^ 22) (hSl' : S' ≤ 2 ^ 22) (hε : ε + M ≤ 21 / 2 ^ 24 * S + 1 / 2 ^ 79) (hε' : ε' + M' ≤ 21 / 2 ^ 24 * S' + 1 / 2 ^ 79)
    (h0 : 0 ≤ ε + M) (h0' : 0 ≤ ε' + M') :
    4 * ((2 * n + 11) / 2 ^ 24 * ((3 * σ + (ε + M)) * (3 * σ' + (ε' + M'))) +
      2 * ((3 * σ + (ε + M)) * (3 * σ' + (ε' + M')) - 3 * σ * (3 * σ'))) + 1 / 2 ^ 69 + 1 / 2 ^ 18 * (σ * σ') ≤ keptErr σ S σ' S' := by
  have hn1 : (n : ℚ) ≤ 6 := by exact_mod_cast hn
  have hS0 : 0 ≤ S := le_trans (by positivity) hS
  have hS0' : 0 ≤ S' := le_trans (by positivity) hS'
  have hU := mul_le_mul (add_le_add_right hε (3 * σ)) (add_le_add_right hε' (3 * σ')) (by positivity) (by positivity)
  have hU0 : 0 ≤ (3 * σ + (ε + M)) * (3 * σ' + (ε' + M')) := by positivity
  generalize (3 * σ + (ε + M)) * (3 * σ' + (ε' + M')) = U at *
  have e : (3 * σ + (21 / 2 ^ 24 * S + 1 / 2 ^ 79)) * (3 * σ' + (21 / 2 ^ 24 * S' + 1 / 2 ^ 79)) =
      9 * (σ * σ') + 63 / 2 ^ 24 * (σ * S' + σ' * S) + 441 / 2 ^ 48 * (S * S') + 3 / 2 ^ 79 * (σ + σ') +
        21 / 2 ^ 103 * (S + S') + 1 / 2 ^ 158 := by ring
  rw [e] at hU
  have hnU : (2 * (n : ℚ) + 11) / 2 ^ 24 * U ≤ 23 / 2 ^ 24 * U := by
    refine mul_le_mul_of_nonneg_right ?_ hU0
    rw [div_le_div_iff_of_pos_right (by norm_num)]
    linarith
  have k1 := mul_le_mul_of_nonneg_left hS' hσ
  have k2 := mul_le_mul_of_nonneg_left hS hσ'
  have k3 : 0 ≤ S * S' := mul_nonneg hS0 hS0'
  have k4 : 0 ≤ σ * σ' := mul_nonneg hσ hσ'
  rw [show σ * (3 * σ') = 3 * (σ * σ') by ring] at k1
  rw [show σ' * (3 * σ) = 3 * (σ * σ') by ring] at k2
  rw [show 3 * σ * (3 * σ') = 9 * (σ * σ') by ring]
  unfold keptErr
  generalize σ * σ' = x1 at *
  generalize σ * S' = x2 at *
  generalize σ' * S = x3 at *
  generalize S * S' = x4 at *
  generalize (2 * (n : ℚ) + 11) / 2 ^ 24 * U = x5 at *
  norm_num at hU hnU hSl hSl' ⊢
  linarith

/-- covariance of two linear components with the default parameters -/
theorem lin_default {n : ℕ} (hn : 2 ≤ n) (hn' : n ≤ 6) {σ σ' S S' v v' ε ε' c c' : ℚ} {d d' cp cm cp' cm' : Fin n → ℚ}
    (h : LinCol v d (3 * σ) ε c cp cm) (h' : LinCol v' d' (3 * σ') ε' c' cp' cm')
    (hS : |v| + 3 * σ ≤ S) (hS' : |v'| + 3 * σ' ≤ S') (hSl : S ≤ 2 ^ 22) (hSl' : S' ≤ 2 ^ 22)
    (hε : ε = (1 + 1 / 2 ^ 15) / 2 ^ 24 * S + 1 / 2 ^ 149) (hε' : ε' = (1 + 1 / 2 ^ 15) / 2 ^ 24 * S' + 1 / 2 ^ 149) {q q' : ℚ}
    (hq : |q - v| ≤ (2 * n + 7) / 2 ^ 24 * S + 1 / 2 ^ 80) (hq' : |q' - v'| ≤ (2 * n + 7) / 2 ^ 24 * S' + 1 / 2 ^ 80) {p : FP}
    (hp : IsCovF (weightsF n (.fin 1) (.fin 1) (.fin 2)).2 (colOf c cp cm) (colOf c' cp' cm') (.fin q) (.fin q') p) {G : ℚ}
    (hG : |(∑ l, (d l : ℝ) * d' l) / (n + 2) - G| ≤ 1 / 2 ^ 18 * (σ * σ')) :
    ∃ r : ℚ, p = .fin r ∧ |r - G| ≤ keptErr σ S σ' S' := by
  have hn1 : (n : ℚ) ≤ 6 := by exact_mod_cast hn'
  have hn0 : (0 : ℚ) ≤ n := by positivity
  have hσ : 0 ≤ σ := by have := (abs_nonneg _).trans (h.size ⟨0, by omega⟩); linarith
  have hσ' : 0 ≤ σ' := by have := (abs_nonneg _).trans (h'.size ⟨0, by omega⟩); linarith
  have hv := abs_nonneg v
  have hv' := abs_nonneg v'
  have hS0 : 0 ≤ S := by linarith
  have hS0' : 0 ≤ S' := by linarith
  have hM : ∀ {S : ℚ}, 0 ≤ S → (2 * (n : ℚ) + 7) / 2 ^ 24 * S ≤ 19 / 2 ^ 24 * S := by
    intro S hS
    refine mul_le_mul_of_nonneg_right ?_ hS
    rw [div_le_div_iff_of_pos_right (by norm_num)]
    linarith
  have hτ : ∀ {S ε q v : ℚ}, 0 ≤ S → ε = (1 + 1 / 2 ^ 15) / 2 ^ 24 * S + 1 / 2 ^ 149 →
      |q - v| ≤ (2 * n + 7) / 2 ^ 24 * S + 1 / 2 ^ 80 →
      0 ≤ ε ∧ |q - v| ≤ 19 / 2 ^ 24 * S + 1 / 2 ^ 80 ∧ ε + (19 / 2 ^ 24 * S + 1 / 2 ^ 80) ≤ 21 / 2 ^ 24 * S + 1 / 2 ^ 79 := by
    intro S ε q v hS hε hq
    have := hM hS
    refine ⟨by rw [hε]; positivity, by linarith, ?_⟩
    rw [hε]
    norm_num
    linarith
  obtain ⟨a1, a2, a3⟩ := hτ hS0 hε hq
  obtain ⟨b1, b2, b3⟩ := hτ hS0' hε' hq'
  obtain ⟨r, hr, e⟩ := lin_cov hn (by omega) (a := 1) (b := 1) (Λ := 2) (by norm_num) (by norm_num) (by norm_num)
    (by rw [abs_of_pos (by positivity)]; norm_num; linarith) h h' (by norm_num at a3 hSl ⊢; linarith) (by norm_num at b3 hSl' ⊢; linarith)
    a2 b2 (by norm_num at a3 hSl ⊢; linarith) (by norm_num at b3 hSl' ⊢; linarith) hp
  refine ⟨r, hr, ?_⟩
  have hcond : utCovCond n (1 : ℚ) (1 : ℚ) (2 : ℚ) = 4 := by
    unfold utCovCond
    have : (0 : ℝ) < n + 2 := by positivity
    push_cast
    rw [abs_of_pos this, abs_of_pos (by norm_num : (0 : ℝ) < 2), abs_one]
    field_simp
    ring
  rw [hcond] at e
  have hk := kept_bound hn' hσ hσ' (by linarith : 3 * σ ≤ S) (by linarith : 3 * σ' ≤ S') hSl hSl' a3 b3
    (by have := (abs_nonneg _).trans a2; linarith) (by have := (abs_nonneg _).trans b2; linarith)
  have hkr := (Rat.cast_le (K := ℝ)).2 hk
  push_cast at hkr e
  have t := abs_add_le ((r : ℝ) - (∑ l, (d l : ℝ) * d' l) / (n + 2)) ((∑ l, (d l : ℝ) * d' l) / (n + 2) - G)
  rw [sub_add_sub_cancel] at t
  have : ((|r - G| : ℚ) : ℝ) ≤ (keptErr σ S σ' S' : ℚ) := by
    push_cast
    refine t.trans ?_
    linarith
  exact Rat.cast_le.1 this

/-- a column of a component that the motion keeps -/
theorem kept_col {n : ℕ} {v σ : ℚ} {d : Fin n → ℚ} (hσ : 0 ≤ σ) (hd : ∀ j, |d j| ≤ 3 * σ) (hM : |v| + 3 * σ ≤ 2 ^ 22) :
    ∃ c cp cm, LinCol v d (3 * σ) ((1 + 1 / 2 ^ 15) / 2 ^ 24 * (|v| + 3 * σ) + 1 / 2 ^ 149) c cp cm ∧
      (FP.conv binary32 (.fin v) :: (List.finRange n).flatMap fun j =>
        [FP.conv binary32 (FP.add binary64 (.fin v) (FP.conv binary64 (.fin (d j)))),
         FP.conv binary32 (FP.sub binary64 (.fin v) (FP.conv binary64 (.fin (d j))))]) = colOf c cp cm := by
  have hM' : |v| + 3 * σ ≤ 2 ^ 39 := hM.trans (by norm_num)
  choose P hP eP using fun j => (Props.kept_point (hd j) hM').1
  choose Q hQ eQ using fun j => (Props.kept_point (hd j) hM').2
  obtain ⟨r, hr, er⟩ := conv32_near (a := v) (y := v) (δ := 0) (M := |v| + 3 * σ) (by simp) (by linarith)
    (by positivity) hM'
  refine ⟨r, P, Q, ⟨hd, er, eP, eQ⟩, ?_⟩
  simp only [hr, hP, hQ, colOf]

/-- the column of the speed in the CTRA model -/
theorem speed_col {n : ℕ} {v a T σ τ : ℚ} {d e : Fin n → ℚ} (hσ : 0 ≤ σ) (hτ : 0 ≤ τ) (hd : ∀ j, |d j| ≤ 3 * σ)
    (he : ∀ j, |e j| ≤ 3 * τ) (hT : |T| ≤ 2 ^ 20) (hA : |a| + 3 * τ ≤ 2 ^ 22)
    (hM : |v| + 3 * σ + (|a| + 3 * τ) * |T| ≤ 2 ^ 22) :
    ∃ c cp cm, LinCol (v + a * T) (fun j => d j + e j * T) (3 * (σ + τ * |T|))
        ((1 + 1 / 2 ^ 15) / 2 ^ 24 * (|v| + 3 * σ + (|a| + 3 * τ) * |T|) + 1 / 2 ^ 149) c cp cm ∧
      (FP.conv binary32 (FP.add binary64 (.fin v) (FP.mul binary64 (.fin a) (.fin T))) :: (List.finRange n).flatMap fun j =>
        [FP.conv binary32 (FP.add binary64 (FP.add binary64 (.fin v) (FP.conv binary64 (.fin (d j))))
            (FP.mul binary64 (FP.add binary64 (.fin a) (FP.conv binary64 (.fin (e j)))) (.fin T))),
         FP.conv binary32 (FP.add binary64 (FP.sub binary64 (.fin v) (FP.conv binary64 (.fin (d j))))
            (FP.mul binary64 (FP.sub binary64 (.fin a) (FP.conv binary64 (.fin (e j)))) (.fin T)))]) = colOf c cp cm := by
  have hv := abs_nonneg v
  have hT0 := abs_nonneg T
  have hAT := mul_nonneg hτ hT0
  have haT := mul_nonneg (abs_nonneg a) hT0
  have hM' : |v| + 3 * σ + (|a| + 3 * τ) * |T| ≤ 2 ^ 39 := hM.trans (by norm_num)
  have hA' : |a| + 3 * τ ≤ 2 ^ 39 := hA.trans (by norm_num)
  choose P hP eP using fun j => (Props.speed_point (hd j) (he j) hT hM' hA').1
  choose Q hQ eQ using fun j => (Props.speed_point (hd j) (he j) hT hM' hA').2
  have h1 := abs_add_le v (a * T)
  rw [abs_mul] at h1
  obtain ⟨r, hr, er⟩ : ∃ q, FP.conv binary32 (FP.add binary64 (.fin v) (FP.mul binary64 (.fin a) (.fin T))) = .fin q ∧
      |q - (v + a * T)| ≤ (1 + 1 / 2 ^ 15) / 2 ^ 24 * (|v| + 3 * σ + (|a| + 3 * τ) * |T|) + 1 / 2 ^ 149 := by
    have b1 := b64_std (a * T)
    rw [abs_mul] at b1
    rw [add_mul] at hM' ⊢
    have b2 : FP.mul binary64 (.fin a) (.fin T) = .fin (binary64.round (a * T)) := by
      refine b64_ofRat ?_
      rw [abs_mul]
      norm_num at hM' ⊢
      linarith
    have b3 : |(v + binary64.round (a * T)) - (v + a * T)| ≤ |a| * |T| / 2 ^ 53 + 1 / 2 ^ 200 := by
      rwa [add_sub_add_left_eq_sub]
    have b4 := abs_add_le ((v + binary64.round (a * T)) - (v + a * T)) (v + a * T)
    rw [sub_add_cancel] at b4
    rw [b2, show FP.add binary64 (.fin v) (.fin (binary64.round (a * T))) =
      FP.ofRat binary64 (v + binary64.round (a * T)) from rfl]
    generalize v + binary64.round (a * T) = y at *
    generalize v + a * T = y' at *
    have b5 := b64_std y
    rw [b64_ofRat (by norm_num at hM' b3 ⊢; linarith)]
    have b6 := abs_sub_le (binary64.round y) y y'
    refine conv32_near (b6.trans ?_) (by linarith) le_rfl hM'
    norm_num at b3 b5 hM' ⊢
    linarith
  refine ⟨r, P, Q, ⟨fun j => ?_, er, eP, eQ⟩, ?_⟩
  · refine (abs_add_le _ _).trans ?_
    rw [abs_mul]
    have := mul_le_mul_of_nonneg_right (he j) hT0
    linarith [hd j]
  · simp only [hr, hP, hQ, colOf]

end SigmaF

end Mot
