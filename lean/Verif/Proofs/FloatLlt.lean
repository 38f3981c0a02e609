import Verif.Model.FloatLlt
import Verif.Spec.FloatLlt
import Verif.Proofs.FloatSums
import Verif.Proofs.LltMargin
import Mathlib.Analysis.Matrix.PosDef
import Mathlib.Algebra.Order.Star.Real
import Mathlib.Data.Fintype.Fin
import Mathlib.Algebra.BigOperators.Field
/-!
# Errors of Eigen's Cholesky decomposition in floating-point arithmetic
-/

namespace Mot.LltF

open Matrix Spec

variable {n : ℕ}

theorem sum_left (k : Fin n) (f : Fin n → ℚ) : ((left k).map f).sum = ∑ l with l < k, f l := rfl

theorem length_left (k : Fin n) : (left k).length = k.1 := by
  have h : (Finset.univ.filter fun i : Fin n => i.1 < k.1).card = (left k).length := rfl
  rw [← h, Fin.card_filter_val_lt]
  exact min_eq_right k.2.le

/-! ### real arithmetic -/

theorem sum_lt_fin {m : ℕ} (hm : m ≤ n) (f : Fin n → ℝ) :
    ∑ l with l.1 < m, f l = ∑ l : Fin m, f (Fin.castLE hm l) := by
  refine (Finset.sum_bij (fun (l : Fin m) _ => Fin.castLE hm l) ?_ ?_ ?_ ?_).symm
  · intro l _
    exact Finset.mem_filter.2 ⟨Finset.mem_univ _, l.2⟩
  · intro a _ b _ hab
    exact Fin.castLE_injective hm hab
  · intro l hl
    exact ⟨⟨l.1, (Finset.mem_filter.1 hl).2⟩, Finset.mem_univ _, rfl⟩
  · intro l _; rfl

theorem sum_lower_lt {m : ℕ} {b : Matrix (Fin n) (Fin n) ℝ} {i j : Fin n} (hj : j.1 < m) (hij : j ≤ i) :
    ∑ l with l.1 < m, (if l ≤ i then b i l else 0) * (if l ≤ j then b j l else 0) =
      ∑ l with l < j, b i l * b j l + b i j * b j j := by
  have e : (Finset.univ.filter fun l : Fin n => l ≤ j) = insert j (Finset.univ.filter fun l => l < j) := by
    ext l
    simp [le_iff_eq_or_lt]
  have h1 : ∑ l with l.1 < m, (if l ≤ i then b i l else 0) * (if l ≤ j then b j l else 0) =
      ∑ l with l ≤ j, b i l * b j l := by
    symm
    refine Finset.sum_subset_zero_on_sdiff ?_ ?_ ?_
    · intro l hl
      have := (Finset.mem_filter.1 hl).2
      rw [Fin.le_def] at this
      exact Finset.mem_filter.2 ⟨Finset.mem_univ _, by omega⟩
    · intro l hl
      have h := (Finset.mem_sdiff.1 hl).2
      have : ¬ l ≤ j := fun hh => h (Finset.mem_filter.2 ⟨Finset.mem_univ _, hh⟩)
      rw [if_neg this, mul_zero]
    · intro l hl
      have := (Finset.mem_filter.1 hl).2
      rw [if_pos this, if_pos (this.trans hij)]
  rw [h1, e, Finset.sum_insert (by simp), add_comm]

/-- rows with too large entries contradict the margin -/
theorem small_of_done {p b : Matrix (Fin n) (Fin n) ℝ} {ε c δ : ℝ} (hε : 0 ≤ ε) (hc : 0 ≤ c) (hs : pᵀ = p)
    (hd : ∀ a, 0 ≤ p a a) (hp : (p - δ • diagonal fun a => p a a).PosDef) {m : ℕ} {i : Fin n} (hm : m ≤ i.1)
    (done : ∀ a j : Fin n, j.1 < m → j ≤ a →
      |∑ l with l < j, b a l * b j l + b a j * b j j - p a j| ≤ ε * (√(p a a) * √(p j j)))
    (hδ : n * ε + c ≤ δ) : ∑ l with l.1 < m, b i l ^ 2 < (1 - c) * p i i := by
  have hmn : m + 1 ≤ n := by omega
  have hmn' : m ≤ n := by omega
  let e : Fin (m + 1) → Fin n := fun a => if h : a.1 < m then ⟨a.1, by omega⟩ else i
  have he1 : ∀ a : Fin (m + 1), a ≠ Fin.last m → (e a).1 = a.1 ∧ a.1 < m := by
    intro a ha
    have : a.1 < m := by
      have := a.2
      have : a.1 ≠ m := fun h => ha (Fin.ext h)
      omega
    simp only [e, dif_pos this]
    exact ⟨trivial, this⟩
  have he2 : e (Fin.last m) = i := by simp [e]
  have hinj : Function.Injective e := by
    intro a b hab
    by_cases ha : a = Fin.last m
    · by_cases hb : b = Fin.last m
      · rw [ha, hb]
      · have h1 := he1 b hb
        rw [← hab, ha, he2] at h1
        omega
    · by_cases hb : b = Fin.last m
      · have h1 := he1 a ha
        rw [hab, hb, he2] at h1
        omega
      · have h1 := he1 a ha
        have h2 := he1 b hb
        rw [hab] at h1
        exact Fin.ext (by omega)
  have hP : (p.submatrix e e - δ • diagonal fun a => p.submatrix e e a a).PosDef := by
    have h := hp.submatrix hinj
    have e1 : (p - δ • diagonal fun a => p a a).submatrix e e =
        p.submatrix e e - δ • diagonal fun a => p.submatrix e e a a := by
      ext a b
      simp only [submatrix_apply, Matrix.sub_apply, Matrix.smul_apply, diagonal_apply, hinj.eq_iff]
    rwa [e1] at h
  let G : Matrix (Fin (m + 1)) (Fin m) ℝ := fun a l => if Fin.castLE hmn' l ≤ e a then b (e a) (Fin.castLE hmn' l) else 0
  have hGG : ∀ a a', (G * Gᵀ) a a' = ∑ l with l.1 < m, (if l ≤ e a then b (e a) l else 0) *
      (if l ≤ e a' then b (e a') l else 0) := by
    intro a a'
    rw [mul_apply, sum_lt_fin hmn']
    rfl
  have hsym : ∀ a a', (G * Gᵀ) a a' = (G * Gᵀ) a' a := by
    intro a a'
    rw [mul_apply, mul_apply]
    exact Finset.sum_congr rfl fun l _ => mul_comm _ _
  have hle : ∀ a a' : Fin (m + 1), a' ≠ Fin.last m → a' ≤ a → |(G * Gᵀ) a a' - p.submatrix e e a a'| ≤
      ε * (√(p.submatrix e e a a) * √(p.submatrix e e a' a')) := by
    intro a a' ha' haa
    have h1 := he1 a' ha'
    have hij : e a' ≤ e a := by
      rw [Fin.le_def, h1.1]
      rw [Fin.le_def] at haa
      by_cases ha : a = Fin.last m
      · rw [ha, he2]; omega
      · rw [(he1 a ha).1]; exact haa
    rw [hGG, sum_lower_lt (by omega) hij]
    exact done _ _ (by omega) hij
  have key := last_small hε hc (fun a => hd (e a)) hP (G := G) (fun a a' h => by
    rcases le_total a' a with haa | haa
    · refine hle a a' ?_ haa
      rintro rfl
      rcases h with h | h
      · exact h (le_antisymm (Fin.le_last _) haa)
      · exact h rfl
    · rw [hsym, mul_comm (√_)]
      have e1 : p.submatrix e e a a' = p.submatrix e e a' a := congrFun (congrFun hs (e a')) (e a)
      rw [e1]
      refine hle a' a ?_ haa
      rintro rfl
      rcases h with h | h
      · exact h rfl
      · exact h (le_antisymm (Fin.le_last _) haa)) (by
    refine le_trans (add_le_add_left (mul_le_mul_of_nonneg_right ?_ hε) _) hδ
    exact_mod_cast hmn)
  rw [hGG, submatrix_apply, he2] at key
  refine lt_of_eq_of_lt (Finset.sum_congr rfl fun l hl => ?_) key
  have hl := (Finset.mem_filter.1 hl).2
  rw [if_pos (by rw [Fin.le_def]; omega), sq]

/-! ### floating-point arithmetic -/

theorem sqrt32_std {q : ℚ} (hq : 0 ≤ q) : |(binary32.sqrt q : ℝ) - √(q : ℝ)| ≤ √(q : ℝ) / 2 ^ 24 + 1 / 2 ^ 150 := by
  have h := binary32.sqrt_std hq
  have e1 : (2 : ℝ) ^ (-(binary32.prec : ℤ)) = 1 / 2 ^ 24 := by
    show (2 : ℝ) ^ (-((24 : ℕ) : ℤ)) = _
    rw [_root_.zpow_neg, zpow_natCast, one_div]
  have e2 : (2 : ℝ) ^ (binary32.emin - 1) = 1 / 2 ^ 150 := by
    show (2 : ℝ) ^ (-((150 : ℕ) : ℤ)) = _
    rw [_root_.zpow_neg, zpow_natCast, one_div]
  rw [e1, e2] at h
  linarith

/-- the rounded square root, squared -/
theorem root_acc {q : ℚ} (hq : 1 / 2 ^ 62 ≤ q) (hq' : q ≤ 2 ^ 41) :
    |binary32.sqrt q ^ 2 - q| ≤ 21 / 10 / 2 ^ 24 * q ∧ 1 / 2 ^ 32 ≤ binary32.sqrt q ∧ binary32.sqrt q ≤ 2 ^ 21 := by
  have hq0 : 0 ≤ q := le_trans (by norm_num) hq
  have h := sqrt32_std hq0
  have hs0 := Real.sqrt_nonneg (q : ℝ)
  have hsq : √(q : ℝ) ^ 2 = q := Real.sq_sqrt (by exact_mod_cast hq0)
  have hlow : 1 / 2 ^ 31 ≤ √(q : ℝ) := by
    refine Real.le_sqrt_of_sq_le ?_
    have : ((1 / 2 ^ 62 : ℚ) : ℝ) ≤ q := by exact_mod_cast hq
    push_cast at this
    refine le_trans (le_of_eq ?_) this
    norm_num
  have hup : √(q : ℝ) ≤ 3 / 2 * 2 ^ 20 := by
    refine Real.sqrt_le_iff.2 ⟨by norm_num, ?_⟩
    have : (q : ℝ) ≤ ((2 ^ 41 : ℚ) : ℝ) := by exact_mod_cast hq'
    push_cast at this
    refine this.trans (by norm_num)
  set r : ℝ := ((binary32.sqrt q : ℚ) : ℝ) with hr
  set s := √(q : ℝ)
  have hη : (1 : ℝ) / 2 ^ 150 ≤ s / 2 ^ 100 := by
    rw [div_le_div_iff₀ (by positivity) (by positivity)]
    have := mul_le_mul_of_nonneg_right hlow (show (0 : ℝ) ≤ 2 ^ 150 by positivity)
    refine le_trans ?_ this
    norm_num
  have hab := abs_le.1 h
  have h2 : |r - s| ≤ (1 / 2 ^ 24 + 1 / 2 ^ 100) * s := by
    refine h.trans ?_
    linarith
  have h3 : |r + s| ≤ (2 + 1 / 2 ^ 20) * s := by
    have := abs_le.1 h2
    rw [abs_le]
    constructor <;> norm_num at this ⊢ <;> linarith
  have h4 : |r ^ 2 - q| ≤ 21 / 10 / 2 ^ 24 * q := by
    rw [← hsq, show r ^ 2 - s ^ 2 = (r - s) * (r + s) by ring, abs_mul]
    refine (mul_le_mul h2 h3 (abs_nonneg _) (by positivity)).trans ?_
    rw [show (1 / 2 ^ 24 + 1 / 2 ^ 100) * s * ((2 + 1 / 2 ^ 20) * s) =
      ((1 / 2 ^ 24 + 1 / 2 ^ 100) * (2 + 1 / 2 ^ 20)) * s ^ 2 by ring]
    refine mul_le_mul_of_nonneg_right ?_ (sq_nonneg _)
    norm_num
  have h5 := abs_le.1 h2
  refine ⟨?_, ?_, ?_⟩
  · rw [hr] at h4
    have : ((|binary32.sqrt q ^ 2 - q| : ℚ) : ℝ) ≤ ((21 / 10 / 2 ^ 24 * q : ℚ) : ℝ) := by push_cast; exact h4
    exact Rat.cast_le.1 this
  · have : ((1 / 2 ^ 32 : ℚ) : ℝ) ≤ r := by
      push_cast
      norm_num at h5 hlow ⊢
      linarith
    rw [hr] at this
    exact_mod_cast this
  · have : r ≤ ((2 ^ 21 : ℚ) : ℝ) := by
      push_cast
      norm_num at h5 hup ⊢
      linarith
    rw [hr] at this
    exact_mod_cast this

/-- a product of bounded numbers -/
theorem prod_term {a b : ℚ} (h : |a * b| ≤ 2 ^ 100) :
    FP.mul binary32 (.fin a) (.fin b) = .fin (binary32.round (a * b)) ∧
    |binary32.round (a * b) - a * b| ≤ 1 / 2 ^ 24 * |a * b| + 1 / 2 ^ 150 := by
  refine ⟨b32_ofRat (h.trans (by norm_num)), (b32_std _).trans (le_of_eq ?_)⟩
  ring

theorem single_le {k : Fin n} (f : Fin n → ℚ) (hf : ∀ l, 0 ≤ f l) {l : Fin n} (hl : l ∈ left k) :
    f l ≤ ∑ l with l < k, f l := by
  refine Finset.single_le_sum (f := f) (fun l _ => hf l) (Finset.mem_filter.2 ⟨Finset.mem_univ _, ?_⟩)
  simpa using (List.mem_filter.1 hl).2

/-- the number under the square root -/
theorem pivot_acc {B : Matrix (Fin n) (Fin n) ℚ} {k : Fin n} (hn : n ≤ 6) (h1 : 1 / 2 ^ 40 ≤ B k k)
    (h2 : B k k ≤ 2 ^ 40) (hS : ∑ l with l < k, B k l ^ 2 ≤ (1 - 1 / 2 ^ 17) * B k k) {x : FP}
    (hx : IsPivot k (finite B) x) :
    ∃ q, x = .fin q ∧ 1 / 2 ^ 62 ≤ q ∧ q ≤ 2 ^ 41 ∧ q ≤ 2 * B k k ∧
      |q - (B k k - ∑ l with l < k, B k l ^ 2)| ≤ 13 / 2 / 2 ^ 24 * B k k := by
  unfold IsPivot at hx
  split at hx
  · rename_i hk
    have he : ∑ l with l < k, B k l ^ 2 = 0 := by
      refine Finset.sum_eq_zero fun l hl => ?_
      have := (Finset.mem_filter.1 hl).2
      rw [Fin.lt_def] at this
      omega
    refine ⟨B k k, hx, le_trans (by norm_num) h1, h2.trans (by norm_num), by linarith [show (0 : ℚ) ≤ 1 / 2 ^ 40 by norm_num], ?_⟩
    rw [he, sub_zero, sub_self, abs_zero]
    exact mul_nonneg (by norm_num) (le_trans (by norm_num) h1)
  · obtain ⟨s, hs, rfl⟩ := hx
    have hS0 : 0 ≤ ∑ l with l < k, B k l ^ 2 := Finset.sum_nonneg fun _ _ => sq_nonneg _
    have hts : (((left k).map fun l => B k l ^ 2).map (|·|)).sum = ∑ l with l < k, B k l ^ 2 := by
      rw [List.map_map, sum_left]
      exact Finset.sum_congr rfl fun l _ => abs_of_nonneg (sq_nonneg _)
    have hF : List.Forall₂ (Term (1 / 2 ^ 24) (1 / 2 ^ 150))
        ((left k).map fun l => FP.mul binary32 (finite B k l) (finite B k l)) ((left k).map fun l => B k l ^ 2) := by
      rw [List.forall₂_map_left_iff, List.forall₂_map_right_iff, List.forall₂_same]
      intro l hl
      have hb : B k l ^ 2 ≤ 2 ^ 40 := by
        have := single_le (k := k) (fun l => B k l ^ 2) (fun _ => sq_nonneg _) hl
        norm_num at hS h2 ⊢
        linarith
      have hb' : |B k l * B k l| ≤ 2 ^ 100 := by
        rw [← sq, abs_of_nonneg (sq_nonneg _)]
        exact hb.trans (by norm_num)
      obtain ⟨e1, e2⟩ := prod_term hb'
      refine ⟨_, e1, ?_⟩
      rw [sq]
      exact e2
    have hlen : ((left k).map fun l => FP.mul binary32 (finite B k l) (finite B k l)).length ≤ 5 := by
      rw [List.length_map, length_left]; omega
    obtain ⟨q, rfl, hq⟩ := hs.terms hF (k := 0) (by norm_num) (by norm_num) (by norm_num) (by omega)
      (by rw [hts]; norm_num at hS h2 ⊢; linarith)
    rw [hts, sum_left] at hq
    have hlen' : (((left k).map fun l => FP.mul binary32 (finite B k l) (finite B k l)).length : ℚ) ≤ 5 := by
      exact_mod_cast hlen
    generalize ((((left k).map fun l => FP.mul binary32 (finite B k l) (finite B k l)).length : ℕ) : ℚ) = N at *
    generalize ∑ l with l < k, B k l ^ 2 = S at *
    have hP0 : 0 ≤ B k k := le_trans (by norm_num) h1
    show ∃ q', FP.ofRat binary32 (B k k - q) = .fin q' ∧ _
    generalize B k k = P at *
    have hq2 : |q - S| ≤ 501 / 100 / 2 ^ 24 * S + 1 / 2 ^ 145 := by
      refine hq.trans ?_
      have := mul_le_mul_of_nonneg_right hlen' hS0
      push_cast
      norm_num at this ⊢
      linarith
    have hq3 := abs_le.1 hq2
    have hq4 : P - q ≤ 2 * P ∧ 1 / 2 ^ 61 ≤ P - q := by
      norm_num at hq3 hS h1 ⊢
      constructor <;> linarith
    have hpos : 0 ≤ P - q := le_trans (by norm_num) hq4.2
    have hr := b32_std (P - q)
    rw [abs_of_nonneg hpos] at hr
    have hr' := abs_le.1 hr
    refine ⟨binary32.round (P - q), b32_ofRat ?_, ?_, ?_, ?_, ?_⟩
    · rw [abs_of_nonneg hpos]
      norm_num at hq4 h2 ⊢
      linarith
    · norm_num at hr' hq4 ⊢; linarith
    · norm_num at hr' hq4 hq3 hS h1 h2 ⊢; linarith
    · norm_num at hr' hq4 hq3 hS h1 h2 ⊢; linarith
    · rw [show binary32.round (P - q) - (P - S) = (binary32.round (P - q) - (P - q)) - (q - S) by ring]
      refine (abs_sub _ _).trans ?_
      norm_num at hr hq2 hq3 hq4 hS h1 h2 ⊢
      linarith

theorem abs_mul_le_half (a b : ℚ) : |a * b| ≤ (a ^ 2 + b ^ 2) / 2 := by
  rw [abs_mul, ← sq_abs a, ← sq_abs b]
  nlinarith [sq_nonneg (|a| - |b|)]

/-- an entry below the diagonal; `r` is the root of the pivot -/
theorem column_acc {B : Matrix (Fin n) (Fin n) ℚ} {i k : Fin n} (hn : n ≤ 6) {r : ℚ} (hr : 1 / 2 ^ 32 ≤ r) (hr' : r ≤ 2 ^ 21)
    (hp : |B i k| ≤ 2 ^ 40) (hSi : ∑ l with l < k, B i l ^ 2 ≤ 2 ^ 40) (hSk : ∑ l with l < k, B k l ^ 2 ≤ 2 ^ 40) {y : FP}
    (hy : SumsTo binary32 (finite B i k :: (left k).map fun l => (FP.mul binary32 (finite B i l) (finite B k l)).neg) y) :
    ∃ z, FP.div binary32 y (.fin r) = .fin z ∧
      |∑ l with l < k, B i l * B k l + z * r - B i k| ≤
        71 / 10 / 2 ^ 24 * (|B i k| + ∑ l with l < k, |B i l * B k l|) + 1 / 2 ^ 120 := by
  have hT : ∑ l with l < k, |B i l * B k l| ≤ 2 ^ 40 := by
    refine (Finset.sum_le_sum fun l _ => abs_mul_le_half (B i l) (B k l)).trans ?_
    rw [← Finset.sum_div, Finset.sum_add_distrib]
    linarith
  have hF : List.Forall₂ (Term (1 / 2 ^ 24) (1 / 2 ^ 150))
      (finite B i k :: (left k).map fun l => (FP.mul binary32 (finite B i l) (finite B k l)).neg)
      (B i k :: (left k).map fun l => -(B i l * B k l)) := by
    refine .cons ⟨B i k, rfl, by rw [sub_self, abs_zero]; positivity⟩ ?_
    rw [List.forall₂_map_left_iff, List.forall₂_map_right_iff, List.forall₂_same]
    intro l hl
    have hb : |B i l * B k l| ≤ 2 ^ 40 :=
      (single_le (k := k) (fun l => |B i l * B k l|) (fun _ => abs_nonneg _) hl).trans hT
    obtain ⟨e1, e2⟩ := prod_term (hb.trans (by norm_num))
    refine ⟨-binary32.round (B i l * B k l), ?_, ?_⟩
    · show FP.neg (FP.mul binary32 (.fin (B i l)) (.fin (B k l))) = _
      rw [e1]; rfl
    · rw [abs_neg, show -binary32.round (B i l * B k l) - -(B i l * B k l) =
        -(binary32.round (B i l * B k l) - B i l * B k l) by ring, abs_neg]
      exact e2
  have hts : (((B i k :: (left k).map fun l => -(B i l * B k l))).map (|·|)).sum =
      |B i k| + ∑ l with l < k, |B i l * B k l| := by
    rw [List.map_cons, List.sum_cons, List.map_map, sum_left]
    congr 1
    exact Finset.sum_congr rfl fun l _ => abs_neg _
  have hsum : (B i k :: (left k).map fun l => -(B i l * B k l)).sum = B i k - ∑ l with l < k, B i l * B k l := by
    rw [List.sum_cons, sum_left, Finset.sum_neg_distrib]; ring
  have hlen : (finite B i k :: (left k).map fun l => (FP.mul binary32 (finite B i l) (finite B k l)).neg).length ≤ 6 := by
    rw [List.length_cons, List.length_map, length_left]; omega
  obtain ⟨q, rfl, hq⟩ := hy.terms hF (k := 0) (by norm_num) (by norm_num) (by norm_num) (by omega)
    (by rw [hts]; norm_num at hp hT ⊢; linarith)
  rw [hts, hsum] at hq
  have hlen' : ((finite B i k :: (left k).map fun l =>
      (FP.mul binary32 (finite B i l) (finite B k l)).neg).length : ℚ) ≤ 6 := by exact_mod_cast hlen
  generalize (((finite B i k :: (left k).map fun l =>
      (FP.mul binary32 (finite B i l) (finite B k l)).neg).length : ℕ) : ℚ) = N at *
  have hab : |∑ l with l < k, B i l * B k l| ≤ ∑ l with l < k, |B i l * B k l| := Finset.abs_sum_le_sum_abs _ _
  have hT0 : 0 ≤ ∑ l with l < k, |B i l * B k l| := Finset.sum_nonneg fun _ _ => abs_nonneg _
  have hp0 := abs_nonneg (B i k)
  have hpq : |B i k - ∑ l with l < k, B i l * B k l| ≤ |B i k| + ∑ l with l < k, |B i l * B k l| :=
    (abs_sub _ _).trans (by linarith)
  generalize ∑ l with l < k, |B i l * B k l| = U at *
  generalize ∑ l with l < k, B i l * B k l = V at *
  generalize B i k = p at *
  generalize hW : |p| + U = W at *
  have hW0 : 0 ≤ W := by linarith
  have hW1 : W ≤ 2 ^ 41 := by norm_num at hp hT ⊢; linarith
  have hq2 : |q - (p - V)| ≤ 601 / 100 / 2 ^ 24 * W + 1 / 2 ^ 144 := by
    refine hq.trans ?_
    have := mul_le_mul_of_nonneg_right hlen' hW0
    push_cast
    norm_num at this ⊢
    linarith
  have hq3 : |q| ≤ 101 / 100 * W + 1 / 2 ^ 144 := by
    have := abs_sub_abs_le_abs_sub q (p - V)
    norm_num at this hq2 ⊢
    linarith
  have hr0 : 0 < r := lt_of_lt_of_le (by norm_num) hr
  have hdiv : |q / r| ≤ 2 ^ 80 := by
    rw [abs_div, abs_of_pos hr0, div_le_iff₀ hr0]
    norm_num at hq3 hW1 hr ⊢
    linarith
  have hstd := b32_std (q / r)
  refine ⟨binary32.round (q / r), ?_, ?_⟩
  · show (if r = 0 then _ else _) = _
    rw [if_neg hr0.ne']
    exact b32_ofRat (hdiv.trans (by norm_num))
  · have h1 : |binary32.round (q / r) * r - q| ≤ |q| / 2 ^ 24 + r / 2 ^ 150 := by
      have e1 : binary32.round (q / r) * r - q = (binary32.round (q / r) - q / r) * r := by
        rw [sub_mul, div_mul_cancel₀ _ hr0.ne']
      rw [e1, abs_mul, abs_of_pos hr0]
      refine (mul_le_mul_of_nonneg_right hstd hr0.le).trans (le_of_eq ?_)
      rw [abs_div, abs_of_pos hr0]
      field_simp
    rw [show V + binary32.round (q / r) * r - p = (binary32.round (q / r) * r - q) + (q - (p - V)) by ring]
    refine (abs_add_le _ _).trans ?_
    norm_num at h1 hq2 hq3 hr' hW0 ⊢
    linarith

/-! ### the loop -/

/-- the first `m` columns have been decomposed -/
structure Inv (P : Matrix (Fin n) (Fin n) ℚ) (m : ℕ) (B : Matrix (Fin n) (Fin n) ℚ) : Prop where
  done : ∀ i j : Fin n, j.1 < m → j ≤ i →
    |∑ l with l < j, real B i l * real B j l + real B i j * real B j j - real P i j| ≤
      1 / 2 ^ 20 * (√(real P i i) * √(real P j j))
  pos : ∀ j : Fin n, j.1 < m → 0 < B j j
  small : ∀ i j : Fin n, j.1 ≤ m → j ≤ i → ∑ l with l < j, B i l ^ 2 ≤ (1 - 1 / 2 ^ 17) * P i i
  rest : ∀ i j : Fin n, m ≤ j.1 → B i j = P i j

/-- what is assumed of the covariance -/
structure Good (P : Matrix (Fin n) (Fin n) ℚ) : Prop where
  size : n ≤ 6
  symm : Pᵀ = P
  low : ∀ i, 1 / 2 ^ 40 ≤ P i i
  high : ∀ i, P i i ≤ 2 ^ 40
  margin : (real P - (1 / 2 ^ 16 : ℝ) • diagonal fun i => real P i i).PosDef

namespace Good
variable {P : Matrix (Fin n) (Fin n) ℚ} (h : Good P)
include h

theorem pos (i : Fin n) : 0 < P i i := lt_of_lt_of_le (by norm_num) (h.low i)

theorem real_pos (i : Fin n) : 0 < real P i i := Rat.cast_pos.2 (h.pos i)

theorem real_symm : (real P)ᵀ = real P := by
  ext i j
  exact congrArg (fun q : ℚ => (q : ℝ)) (congrFun (congrFun h.symm i) j)

theorem posDef : (real P).PosDef := by
  have h1 : (real P - (1 / 2 ^ 16 : ℝ) • diagonal fun i => real P i i).PosDef := h.margin
  have h2 : ((1 / 2 ^ 16 : ℝ) • diagonal fun i => real P i i).PosSemidef := by
    have e : (1 / 2 ^ 16 : ℝ) • (diagonal fun i => real P i i) = diagonal fun i => 1 / 2 ^ 16 * real P i i := by
      ext i j
      simp [diagonal_apply]
    rw [e]
    refine posSemidef_diagonal_iff.2 fun i => ?_
    have := h.real_pos i
    positivity
  have := h1.add_posSemidef h2
  rwa [sub_add_cancel] at this

theorem off (i j : Fin n) : |real P i j| ≤ √(real P i i) * √(real P j j) := by
  have hpos := h.posDef.posSemidef
  have hs := h.real_symm
  have hi := h.real_pos i
  have hj := h.real_pos j
  by_cases hij : i = j
  · subst hij
    rw [Real.mul_self_sqrt hi.le, abs_of_pos hi]
  have hdet := (hpos.submatrix ![i, j]).det_nonneg
  rw [det_fin_two] at hdet
  have e : real P j i = real P i j := congrFun (congrFun hs i) j
  simp only [submatrix_apply, cons_val_zero, cons_val_one, e] at hdet
  rw [← Real.sqrt_mul hi.le]
  refine Real.abs_le_sqrt ?_
  nlinarith

theorem scale (i j : Fin n) : 1 / 2 ^ 40 ≤ √(real P i i) * √(real P j j) := by
  have key : ∀ i, 1 / 2 ^ 20 ≤ √(real P i i) := by
    intro i
    refine Real.le_sqrt_of_sq_le ?_
    have : ((1 / 2 ^ 40 : ℚ) : ℝ) ≤ real P i i := Rat.cast_le.2 (h.low i)
    push_cast at this
    refine le_trans (le_of_eq ?_) this
    norm_num
  have := mul_le_mul (key i) (key j) (by positivity) (Real.sqrt_nonneg _)
  refine le_trans (le_of_eq ?_) this
  norm_num

theorem scale_le (i j : Fin n) : √(real P i i) * √(real P j j) ≤ 2 ^ 40 := by
  have key : ∀ i, √(real P i i) ≤ 2 ^ 20 := by
    intro i
    refine Real.sqrt_le_iff.2 ⟨by positivity, ?_⟩
    have : real P i i ≤ ((2 ^ 40 : ℚ) : ℝ) := Rat.cast_le.2 (h.high i)
    push_cast at this
    refine this.trans (le_of_eq ?_)
    norm_num
  have := mul_le_mul (key i) (key j) (Real.sqrt_nonneg _) (by positivity)
  refine this.trans (le_of_eq ?_)
  norm_num

end Good

theorem inv_zero {P : Matrix (Fin n) (Fin n) ℚ} (h : Good P) : Inv P 0 P := by
  refine ⟨fun _ _ hj => absurd hj (Nat.not_lt_zero _), fun _ hj => absurd hj (Nat.not_lt_zero _), fun i j hj _ => ?_,
    fun _ _ _ => rfl⟩
  have he : ∑ l with l < j, P i l ^ 2 = 0 := by
    refine Finset.sum_eq_zero fun l hl => ?_
    have := (Finset.mem_filter.1 hl).2
    rw [Fin.lt_def] at this
    omega
  rw [he]
  exact mul_nonneg (by norm_num) (h.pos i).le

theorem cast_sum (s : Finset (Fin n)) (f : Fin n → ℚ) : ((∑ l ∈ s, f l : ℚ) : ℝ) = ∑ l ∈ s, (f l : ℝ) := by
  push_cast; rfl

theorem Inv.pivot {P B : Matrix (Fin n) (Fin n) ℚ} {k : Fin n} (hP : Good P) (h : Inv P k B) {x : FP}
    (hx : IsPivot k (finite B) x) :
    ∃ q, x = .fin q ∧ 1 / 2 ^ 62 ≤ q ∧ q ≤ 2 ^ 41 ∧ q ≤ 2 * P k k ∧
      |q - (P k k - ∑ l with l < k, B k l ^ 2)| ≤ 13 / 2 / 2 ^ 24 * P k k := by
  have e := h.rest k k le_rfl
  have := pivot_acc hP.size (by rw [e]; exact hP.low k) (by rw [e]; exact hP.high k)
    (by rw [e]; exact h.small k k le_rfl le_rfl) hx
  rwa [e] at this

theorem Inv.column {P B : Matrix (Fin n) (Fin n) ℚ} {k : Fin n} (hP : Good P) (h : Inv P k B) {r : ℚ}
    (hr : 1 / 2 ^ 32 ≤ r) (hr' : r ≤ 2 ^ 21) {i : Fin n} (hi : k < i) {y : FP}
    (hy : SumsTo binary32 (finite B i k :: (left k).map fun l => (FP.mul binary32 (finite B i l) (finite B k l)).neg) y) :
    ∃ z, FP.div binary32 y (.fin r) = .fin z ∧
      |∑ l with l < k, real B i l * real B k l + z * r - real P i k| ≤
        1 / 2 ^ 20 * (√(real P i i) * √(real P k k)) := by
  have e := h.rest i k le_rfl
  have hSi := h.small i k le_rfl hi.le
  have hSk := h.small k k le_rfl le_rfl
  have hoff := hP.off i k
  have hsc := hP.scale i k
  have hsc' := hP.scale_le i k
  have hcap : ∀ i, (1 - 1 / 2 ^ 17) * P i i ≤ 2 ^ 40 := by
    intro i
    have h1 := hP.high i
    have h2 := hP.pos i
    norm_num at h1 ⊢
    linarith
  have hp : |B i k| ≤ 2 ^ 40 := by
    rw [e]
    have : ((|P i k| : ℚ) : ℝ) ≤ ((2 ^ 40 : ℚ) : ℝ) := by
      push_cast
      exact hoff.trans hsc'
    exact Rat.cast_le.1 this
  obtain ⟨z, h1, h2⟩ := column_acc hP.size hr hr' hp (hSi.trans (hcap i)) (hSk.trans (hcap k)) hy
  refine ⟨z, h1, ?_⟩
  rw [e] at h2
  have h3 := (Rat.cast_le (K := ℝ)).2 h2
  push_cast at h3
  -- Cauchy-Schwarz
  have hcs : ∑ l with l < k, |(B i l : ℝ) * (B k l : ℝ)| ≤ √(real P i i) * √(real P k k) := by
    have c1 := Real.sum_mul_le_sqrt_mul_sqrt (Finset.univ.filter (· < k)) (fun l => |(B i l : ℝ)|) (fun l => |(B k l : ℝ)|)
    simp only [sq_abs] at c1
    simp only [abs_mul]
    refine c1.trans (mul_le_mul (Real.sqrt_le_sqrt ?_) (Real.sqrt_le_sqrt ?_) (Real.sqrt_nonneg _) (Real.sqrt_nonneg _))
    · have := (Rat.cast_le (K := ℝ)).2 hSi
      push_cast at this
      refine this.trans ?_
      have := hP.real_pos i
      show _ * real P i i ≤ real P i i
      norm_num
      linarith
    · have := (Rat.cast_le (K := ℝ)).2 hSk
      push_cast at this
      refine this.trans ?_
      have := hP.real_pos k
      show _ * real P k k ≤ real P k k
      norm_num
      linarith
  have hoff' : |(P i k : ℝ)| ≤ √(real P i i) * √(real P k k) := hoff
  have h4 : |∑ l with l < k, real B i l * real B k l + z * r - real P i k| ≤
      71 / 10 / 2 ^ 24 * (|(P i k : ℝ)| + ∑ l with l < k, |(B i l : ℝ) * (B k l : ℝ)|) + 1 / 2 ^ 120 := by
    simp only [abs_mul] at h3 ⊢
    exact h3
  refine h4.trans ?_
  generalize √(real P i i) * √(real P k k) = s at *
  norm_num at hcs hoff' hsc ⊢
  linarith

theorem Inv.step {P B : Matrix (Fin n) (Fin n) ℚ} {k : Fin n} (hP : Good P) (h : Inv P k B) {x : FP}
    (hx : IsPivot k (finite B) x) {A' : Matrix (Fin n) (Fin n) FP} (hc : IsColumn k (finite B) x A') :
    ∃ B', A' = finite B' ∧ Inv P (k + 1) B' := by
  obtain ⟨q, rfl, q1, q2, q3, q4⟩ := h.pivot hP hx
  obtain ⟨c1, c2, c3⟩ := hc
  obtain ⟨r1, r2, r3⟩ := root_acc q1 q2
  have hq0 : ¬ q < 0 := not_lt.2 (le_trans (by norm_num) q1)
  have hsqrt : FP.sqrt binary32 (.fin q) = .fin (binary32.sqrt q) := if_neg hq0
  rw [hsqrt] at c1 c2
  generalize binary32.sqrt q = r at *
  have hcol : ∀ i, k < i → ∃ z, A' i k = .fin z ∧
      |∑ l with l < k, real B i l * real B k l + z * r - real P i k| ≤
        1 / 2 ^ 20 * (√(real P i i) * √(real P k k)) := by
    intro i hi
    obtain ⟨y, hy, e⟩ := c2 i hi
    obtain ⟨z, h1, h2⟩ := h.column hP r2 r3 hi hy
    exact ⟨z, e.trans h1, h2⟩
  have hfin : ∀ i j, ∃ b, A' i j = .fin b := by
    intro i j
    by_cases hj : j = k
    · subst hj
      rcases lt_trichotomy i j with hi | hi | hi
      · exact ⟨_, c3 i j (.inr hi)⟩
      · subst hi; exact ⟨_, c1⟩
      · obtain ⟨z, hz, -⟩ := hcol i hi
        exact ⟨z, hz⟩
    · exact ⟨_, c3 i j (.inl hj)⟩
  choose B' hB' using hfin
  have hkk : B' k k = r := by
    have := (hB' k k).symm.trans c1
    exact FP.fin.inj this
  have hne : ∀ i j, j ≠ k → B' i j = B i j := fun i j hj => FP.fin.inj ((hB' i j).symm.trans (c3 i j (.inl hj)))
  have hsame : ∀ {j l : Fin n} (i : Fin n), j.1 ≤ k.1 → l < j → B' i l = B i l := by
    intro j l i hj hl
    refine hne i l ?_
    rintro rfl
    rw [Fin.lt_def] at hl
    omega
  have hdone : ∀ i j : Fin n, j.1 < k.1 + 1 → j ≤ i →
      |∑ l with l < j, real B' i l * real B' j l + real B' i j * real B' j j - real P i j| ≤
        1 / 2 ^ 20 * (√(real P i i) * √(real P j j)) := by
    intro i j hj hij
    have hsum : ∑ l with l < j, real B' i l * real B' j l = ∑ l with l < j, real B i l * real B j l := by
      refine Finset.sum_congr rfl fun l hl => ?_
      have hl := (Finset.mem_filter.1 hl).2
      unfold real
      rw [hsame i (by omega) hl, hsame j (by omega) hl]
    rw [hsum]
    by_cases hjk : j = k
    · subst hjk
      rcases hij.eq_or_lt with rfl | hij
      · have e1 : real B' j j = (r : ℝ) := congrArg (fun q : ℚ => (q : ℝ)) hkk
        rw [e1, Real.mul_self_sqrt (hP.real_pos j).le]
        have key : |∑ l with l < j, B j l ^ 2 + r * r - P j j| ≤ 1 / 2 ^ 20 * P j j := by
          rw [show ∑ l with l < j, B j l ^ 2 + r * r - P j j =
            (q - (P j j - ∑ l with l < j, B j l ^ 2)) + (r ^ 2 - q) by ring]
          refine (abs_add_le _ _).trans ?_
          have := hP.pos j
          norm_num at q4 r1 q3 ⊢
          linarith
        have := (Rat.cast_le (K := ℝ)).2 key
        push_cast at this
        have e2 : ∑ l with l < j, real B j l * real B j l = ∑ l with l < j, (B j l : ℝ) ^ 2 :=
          Finset.sum_congr rfl fun l _ => (sq _).symm
        rw [e2]
        exact this
      · obtain ⟨z, hz, hb⟩ := hcol i hij
        have e1 : real B' j j = (r : ℝ) := congrArg (fun q : ℚ => (q : ℝ)) hkk
        have e2 : real B' i j = (z : ℝ) :=
          congrArg (fun q : ℚ => (q : ℝ)) (FP.fin.inj ((hB' i j).symm.trans hz))
        rw [e1, e2]
        exact hb
    · have e1 : real B' i j = real B i j := congrArg (fun q : ℚ => (q : ℝ)) (hne i j hjk)
      have e2 : real B' j j = real B j j := congrArg (fun q : ℚ => (q : ℝ)) (hne j j hjk)
      rw [e1, e2]
      have : j.1 ≠ k.1 := fun e => hjk (Fin.ext e)
      exact h.done i j (by omega) hij
  refine ⟨B', by ext i j; exact hB' i j, hdone, ?_, ?_, ?_⟩
  · intro j hj
    by_cases hjk : j = k
    · subst hjk
      rw [hkk]
      exact lt_of_lt_of_le (by norm_num) r2
    · rw [hne j j hjk]
      have : j.1 ≠ k.1 := fun e => hjk (Fin.ext e)
      exact h.pos j (by omega)
  · intro i j hj hij
    by_cases hjk : j.1 ≤ k.1
    · have : ∑ l with l < j, B' i l ^ 2 = ∑ l with l < j, B i l ^ 2 := by
        refine Finset.sum_congr rfl fun l hl => ?_
        rw [hsame i hjk (Finset.mem_filter.1 hl).2]
      rw [this]
      exact h.small i j hjk hij
    · have hjk : j.1 = k.1 + 1 := by omega
      have key := small_of_done (p := real P) (b := real B') (ε := 1 / 2 ^ 20) (c := 1 / 2 ^ 17) (δ := 1 / 2 ^ 16)
        (by positivity) (by positivity) hP.real_symm (fun a => (hP.real_pos a).le) hP.margin (m := k.1 + 1) (i := i)
        (by rw [Fin.le_def] at hij; omega) hdone (by
          have : (n : ℝ) ≤ 6 := by exact_mod_cast hP.size
          norm_num
          linarith)
      have e : ((∑ l with l < j, B' i l ^ 2 : ℚ) : ℝ) = ∑ l : Fin n with l.1 < k.1 + 1, real B' i l ^ 2 := by
        rw [cast_sum]
        have : (Finset.univ.filter fun l : Fin n => l < j) = Finset.univ.filter fun l => l.1 < k.1 + 1 := by
          ext l
          simp only [Finset.mem_filter, Finset.mem_univ, true_and, Fin.lt_def, hjk]
        rw [this]
        exact Finset.sum_congr rfl fun l _ => by push_cast; rfl
      rw [← e] at key
      have e2 : (1 - 1 / 2 ^ 17 : ℝ) * real P i i = (((1 - 1 / 2 ^ 17) * P i i : ℚ) : ℝ) := by push_cast; rfl
      rw [e2] at key
      exact (Rat.cast_lt.1 key).le
  · intro i j hj
    rw [hne i j (by rintro rfl; omega)]
    exact h.rest i j (by omega)

/-- how the loop ends -/
theorem loop_acc {P : Matrix (Fin n) (Fin n) ℚ} (hP : Good P) (ks : List (Fin n)) (m : ℕ)
    (hks : ks = (List.finRange n).drop m) {B : Matrix (Fin n) (Fin n) ℚ} (h : Inv P m B)
    {C : Matrix (Fin n) (Fin n) FP} {r : Option (Fin n)} (hl : Loop ks (finite B) C r) :
    r = none ∧ ∃ B', C = finite B' ∧ Inv P n B' := by
  induction ks generalizing m B with
  | nil =>
    cases hl
    refine ⟨rfl, B, rfl, ?_⟩
    have : n ≤ m := by simpa using hks.symm
    exact ⟨fun i j _ => h.done i j (by omega), fun j _ => h.pos j (by omega), fun i j _ => h.small i j (by omega),
      fun i j hj => absurd hj (by omega)⟩
  | cons k ks ih =>
    have hm : m < n := by
      by_contra hm
      rw [List.drop_eq_nil_of_le (by simpa using hm)] at hks
      cases hks
    rw [List.drop_eq_getElem_cons (by simpa using hm)] at hks
    obtain ⟨rfl, rfl⟩ := List.cons.inj hks
    have hk : ((List.finRange n)[m]'(by simpa using hm)).1 = m := by simp
    generalize (List.finRange n)[m]'(by simpa using hm) = k at *
    rw [← hk] at h
    cases hl with
    | stop hx h0 =>
      obtain ⟨q, rfl, q1, -⟩ := h.pivot hP hx
      have : q ≤ 0 := of_decide_eq_true h0
      exact absurd (le_trans q1 this) (by norm_num)
    | step hx h0 hc hl =>
      obtain ⟨B', rfl, h'⟩ := h.step hP hx hc
      rw [hk] at h'
      exact ih (m + 1) rfl h' hl

end Mot.LltF
