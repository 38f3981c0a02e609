import Verif.Proofs.FloatLltCases
import Verif.Proofs.Cholesky
/-!
# C122: the Cholesky decomposition of Eigen on `float`s
-/

namespace Mot.Props

open Matrix Spec

/-! ## C122 -/

section
variable {n : ℕ}

/-- C122: the decomposition of any matrix, infinities and NaN included, comes to an end. -/
theorem C122_defined (P : Matrix (Fin n) (Fin n) FP) : ∃ L r, IsLltF P L r := by
  obtain ⟨B, r, h⟩ := LltF.exists_loop (List.finRange n) P
  exact ⟨fun i j => if j ≤ i then B i j else .fin 0, r, B, h, fun _ _ => rfl⟩

/-- C122: variances between 2^-40 and 2^40, and the covariance exceeds 2^-16 times its diagonal: whatever the order of
the sums, the decomposition runs to its end, and the product of the factor with its transpose is the covariance up to 2^-20
of the standard deviations involved. -/
theorem C122_accurate (hn : n ≤ 6) {P : Matrix (Fin n) (Fin n) ℚ} (hs : Pᵀ = P) (hl : ∀ i, 1 / 2 ^ 40 ≤ P i i)
    (hh : ∀ i, P i i ≤ 2 ^ 40) (hm : (real P - (1 / 2 ^ 16 : ℝ) • diagonal fun i => real P i i).PosDef)
    {L : Matrix (Fin n) (Fin n) FP} {r : Option (Fin n)} (h : IsLltF (finite P) L r) :
    r = none ∧ ∃ Q : Matrix (Fin n) (Fin n) ℚ, L = finite Q ∧ (∀ i j, i < j → Q i j = 0) ∧ (∀ i, 0 < Q i i) ∧
      ∀ i j, |(real Q * (real Q)ᵀ) i j - real P i j| ≤ 1 / 2 ^ 20 * (√(real P i i) * √(real P j j)) := by
  have hP : LltF.Good P := ⟨hn, hs, hl, hh, hm⟩
  obtain ⟨C, hC, hL⟩ := h
  obtain ⟨rfl, B, rfl, hI⟩ := LltF.loop_acc hP _ 0 rfl (LltF.inv_zero hP) hC
  refine ⟨rfl, fun i j => if j ≤ i then B i j else 0, ?_, fun i j hij => if_neg (not_le.2 hij), fun i => ?_, ?_⟩
  · ext i j
    rw [hL]
    show (if _ then FP.fin _ else _) = FP.fin (if _ then _ else _)
    split <;> rfl
  · exact (hI.pos i i.2).trans_eq (if_pos le_rfl).symm
  · have key : ∀ i j : Fin n, j ≤ i →
        |(real (fun i j => if j ≤ i then B i j else 0) * (real fun i j => if j ≤ i then B i j else 0)ᵀ) i j - real P i j| ≤
          1 / 2 ^ 20 * (√(real P i i) * √(real P j j)) := by
      intro i j hij
      have e : (real (fun i j => if j ≤ i then B i j else 0) * (real fun i j => if j ≤ i then B i j else 0)ᵀ) i j =
          ∑ l with l < j, real B i l * real B j l + real B i j * real B j j := by
        rw [← LltF.sum_lower_lt (b := real B) j.2 hij, mul_apply]
        simp only [transpose_apply]
        rw [Finset.filter_true_of_mem fun l _ => l.2]
        refine Finset.sum_congr rfl fun l _ => ?_
        show (((if l ≤ i then B i l else 0 : ℚ)) : ℝ) * ((if l ≤ j then B j l else 0 : ℚ) : ℝ) = _
        unfold real
        congr 1 <;> split <;> simp
      rw [e]
      exact hI.done i j j.2 hij
    intro i j
    rcases le_total j i with hij | hij
    · exact key i j hij
    · have h1 := key j i hij
      have e1 : real P i j = real P j i := congrFun (congrFun hP.real_symm j) i
      rw [e1, mul_comm (√_), mul_apply]
      rw [mul_apply] at h1
      refine le_of_eq_of_le ?_ h1
      congr 2
      exact Finset.sum_congr rfl fun l _ => mul_comm _ _

/-- correlations of at most 1/8 leave the margin that `C122_accurate` asks for -/
theorem margin_of_correlations (hn : n ≤ 6) {P : Matrix (Fin n) (Fin n) ℚ} (hs : Pᵀ = P) (hl : ∀ i, 1 / 2 ^ 40 ≤ P i i)
    (hc : ∀ i j, i ≠ j → (8 * P i j) ^ 2 ≤ P i i * P j j) :
    (real P - (1 / 2 ^ 16 : ℝ) • diagonal fun i => real P i i).PosDef := by
  have hpos : ∀ i, (0 : ℝ) < real P i i := fun i => Rat.cast_pos.2 (lt_of_lt_of_le (by norm_num) (hl i))
  have hoff : ∀ i j, i ≠ j → |real P i j| ≤ 1 / 8 * (√(real P i i) * √(real P j j)) := by
    intro i j hij
    have h1 := (Rat.cast_le (K := ℝ)).2 (hc i j hij)
    push_cast at h1
    rw [← Real.sqrt_mul (hpos i).le]
    have h2 : |8 * real P i j| ≤ √(real P i i * real P j j) := Real.abs_le_sqrt h1
    rw [abs_mul, abs_of_pos (by norm_num : (0 : ℝ) < 8)] at h2
    linarith
  have hsr : (real P)ᵀ = real P := by
    ext i j
    exact congrArg (fun q : ℚ => (q : ℝ)) (congrFun (congrFun hs i) j)
  refine PosDef.of_dotProduct_mulVec_pos ?_ fun {v} hv => ?_
  · rw [IsHermitian, conjTranspose_eq_transpose_of_trivial, transpose_sub, transpose_smul, diagonal_transpose, hsr]
  · rw [star_trivial, sub_mulVec, dotProduct_sub, smul_mulVec, dotProduct_smul, sum_form, smul_eq_mul]
    have hdiag : v ⬝ᵥ (diagonal fun a => real P a a) *ᵥ v = ∑ a, real P a a * v a ^ 2 := by
      simp only [dotProduct, mulVec_diagonal]
      exact Finset.sum_congr rfl fun a _ => by ring
    rw [hdiag]
    have hterm : ∀ a b, (if a = b then 9 / 8 * (real P a a * v a ^ 2) else 0) -
        1 / 8 * ((√(real P a a) * |v a|) * (√(real P b b) * |v b|)) ≤ real P a b * (v a * v b) := by
      intro a b
      by_cases hab : a = b
      · subst hab
        rw [if_pos rfl]
        have : (√(real P a a) * |v a|) * (√(real P a a) * |v a|) = real P a a * v a ^ 2 := by
          rw [mul_mul_mul_comm, Real.mul_self_sqrt (hpos a).le, ← sq, sq_abs]
        rw [this, sq]
        linarith
      · rw [if_neg hab]
        have h1 := mul_le_mul_of_nonneg_right (hoff a b hab) (show 0 ≤ |v a| * |v b| by positivity)
        have h2 := neg_abs_le (real P a b * (v a * v b))
        rw [abs_mul, abs_mul] at h2
        linarith
    have hsum := Finset.sum_le_sum fun a (_ : a ∈ Finset.univ) =>
      Finset.sum_le_sum fun b (_ : b ∈ Finset.univ) => hterm a b
    simp only [Finset.sum_sub_distrib, Finset.sum_ite_eq, Finset.mem_univ, if_true, ← Finset.mul_sum, ← Finset.sum_mul] at hsum
    rw [← sq] at hsum
    have hcs : (∑ a, √(real P a a) * |v a|) ^ 2 ≤ 6 * ∑ a, real P a a * v a ^ 2 := by
      have := sq_sum_le_card_mul_sum_sq (s := Finset.univ) (f := fun a : Fin n => √(real P a a) * |v a|)
      simp only [Finset.card_univ, Fintype.card_fin] at this
      have e : ∑ a, (√(real P a a) * |v a|) ^ 2 = ∑ a, real P a a * v a ^ 2 :=
        Finset.sum_congr rfl fun a _ => by rw [mul_pow, Real.sq_sqrt (hpos a).le, sq_abs]
      rw [e] at this
      refine this.trans (mul_le_mul_of_nonneg_right (by exact_mod_cast hn) ?_)
      exact Finset.sum_nonneg fun a _ => mul_nonneg (hpos a).le (sq_nonneg _)
    have hD : 0 < ∑ a, real P a a * v a ^ 2 := by
      obtain ⟨i, hi⟩ := Function.ne_iff.1 hv
      refine Finset.sum_pos' (fun a _ => mul_nonneg (hpos a).le (sq_nonneg _)) ⟨i, Finset.mem_univ _, ?_⟩
      have : v i ≠ 0 := hi
      exact mul_pos (hpos i) (by positivity)
    norm_num
    linarith

/-- C122: variances between 2^-40 and 2^40 and correlations of at most 1/8 suffice. -/
theorem C122_correlations (hn : n ≤ 6) {P : Matrix (Fin n) (Fin n) ℚ} (hs : Pᵀ = P) (hl : ∀ i, 1 / 2 ^ 40 ≤ P i i)
    (hh : ∀ i, P i i ≤ 2 ^ 40) (hc : ∀ i j, i ≠ j → (8 * P i j) ^ 2 ≤ P i i * P j j)
    {L : Matrix (Fin n) (Fin n) FP} {r : Option (Fin n)} (h : IsLltF (finite P) L r) :
    r = none ∧ ∃ Q : Matrix (Fin n) (Fin n) ℚ, L = finite Q ∧
      ∀ i j, |(real Q * (real Q)ᵀ) i j - real P i j| ≤ 1 / 2 ^ 20 * (√(real P i i) * √(real P j j)) := by
  obtain ⟨h1, Q, h2, -, -, h3⟩ := C122_accurate hn hs hl hh (margin_of_correlations hn hs hl hc) h
  exact ⟨h1, Q, h2, h3⟩

/-- C122: if the decomposition gives up in column `k`, the matrix used as the factor has the numbers of the covariance itself
from column `k` on. -/
theorem C122_left_over {P L : Matrix (Fin n) (Fin n) FP} {k : Fin n} (h : IsLltF P L (some k)) :
    ∀ i j, k ≤ j → L i j = if j ≤ i then P i j else .fin 0 := by
  obtain ⟨B, hB, hL⟩ := h
  intro i j hj
  rw [hL, hB.rest LltF.finRange_sorted k rfl i j hj]

/-- C122: only the lower triangle of the covariance is read. -/
theorem C122_lower_only {P P₂ L : Matrix (Fin n) (Fin n) FP} {r : Option (Fin n)} (hP : ∀ i j, j ≤ i → P i j = P₂ i j) :
    IsLltF P L r ↔ IsLltF P₂ L r := by
  have key : ∀ {P P₂ : Matrix (Fin n) (Fin n) FP}, LltF.Same P P₂ → IsLltF P L r → IsLltF P₂ L r := by
    rintro P P₂ hs ⟨B, hB, hL⟩
    obtain ⟨B₂, h1, h2⟩ := LltF.Same.loop hB hs
    refine ⟨B₂, h1, fun i j => ?_⟩
    rw [hL]
    split
    · rename_i hij; exact h2 i j hij
    · rfl
  exact ⟨key hP, key (LltF.Same.symm hP)⟩

open Classical in
/-- C122 for diagonal covariances: correctly rounded standard deviations up to the first variance that is not positive, the
variances themselves from there on; the order of the sums makes no difference. -/
theorem C122_diagonal {d : Fin n → ℚ} (hd : ∀ i, IsFloat (d i)) {L : Matrix (Fin n) (Fin n) FP} {r : Option (Fin n)}
    (h : IsLltF (finite (diagonal d)) L r) :
    L = (finite (diagonal fun i => if ∀ j ≤ i, 0 < d j then binary32.sqrt (d i) else d i)) ∧
      ∀ k, r = some k ↔ d k ≤ 0 ∧ ∀ j < k, 0 < d j := by
  obtain ⟨B, hB, hL⟩ := h
  have e0 : finite (diagonal d) = LltF.roots d 0 := by
    ext i j
    show FP.fin (diagonal d i j) = if _ then _ else _
    rw [if_neg (Nat.not_lt_zero _), diagonal_apply]
    split <;> rfl
  rw [e0] at hB
  have hLB : ∀ m, B = LltF.roots d m → L = LltF.roots d m := by
    rintro m rfl
    ext i j
    rw [hL]
    split
    · rfl
    · rename_i hij
      rw [LltF.roots_ne _ _ (fun e => hij e.ge)]
  have hr : ∀ m, (∀ i : Fin n, i.1 < m ↔ ∀ j ≤ i, 0 < d j) →
      LltF.roots d m = finite (diagonal fun i => if ∀ j ≤ i, 0 < d j then binary32.sqrt (d i) else d i) := by
    intro m hm
    ext i j
    show (if _ then _ else _) = FP.fin (diagonal _ i j)
    rw [diagonal_apply]
    by_cases hij : i = j
    · rw [if_pos hij, if_pos hij]
      congr 1
      by_cases h : i.1 < m
      · rw [if_pos h, if_pos ((hm i).1 h)]
      · rw [if_neg h, if_neg fun hh => h ((hm i).2 hh)]
    · rw [if_neg hij, if_neg hij]
  rcases LltF.roots_loop hd _ 0 rfl hB with ⟨rfl, hB, hp⟩ | ⟨k, rfl, hB, hk, hp⟩
  · refine ⟨(hLB n hB).trans (hr n fun i => ⟨fun _ j _ => hp j (Nat.zero_le _), fun _ => i.2⟩), fun k => ?_⟩
    constructor
    · intro h; cases h
    · rintro ⟨h, -⟩
      exact absurd (hp k (Nat.zero_le _)) (not_lt.2 h)
  · refine ⟨(hLB k hB).trans (hr k fun i => ⟨fun hi j hj => hp j (Nat.zero_le _) (hj.trans_lt hi), fun hi => ?_⟩),
      fun k' => ⟨?_, ?_⟩⟩
    · by_contra hcon
      exact absurd (hi k (not_lt.1 hcon)) (not_lt.2 hk)
    · intro h
      cases h
      exact ⟨hk, fun j hj => hp j (Nat.zero_le _) hj⟩
    · rintro ⟨h1, h2⟩
      rcases lt_trichotomy k k' with h | h | h
      · exact absurd (h2 k h) (not_lt.2 hk)
      · rw [h]
      · exact absurd (hp k' (Nat.zero_le _) h) (not_lt.2 h1)

/-- C122: a NaN in row `i` of the lower triangle goes unnoticed: unless the decomposition gives up before column `i`, it
reports success, and all numbers of the factor from row and column `i` on are NaN. -/
theorem C122_nan {P L : Matrix (Fin n) (Fin n) FP} {r : Option (Fin n)} {i j : Fin n} (hij : j ≤ i) (hP : P i j = .nan)
    (h : IsLltF P L r) : (∃ k < i, r = some k) ∨ (r = none ∧ ∀ a b, i ≤ b → b ≤ a → L a b = .nan) := by
  obtain ⟨B, hB, hL⟩ := h
  rcases LltF.nan_loop hij _ 0 rfl hP (fun a b hb => absurd hb (Nat.not_lt_zero _)) hB with ⟨k, h1, h2⟩ | ⟨h1, h2⟩
  · exact .inl ⟨k, h1, h2⟩
  · refine .inr ⟨h1, fun a b hb hba => ?_⟩
    rw [hL, if_pos hba]
    exact h2 a b hb hba

/-- C122: an infinite first variance hides the covariances with the first variable: the first column of the factor is infinite
in its first place and zero below it. -/
theorem C122_first_infinite {P L : Matrix (Fin (n + 1)) (Fin (n + 1)) FP} {r : Option (Fin (n + 1))} (h00 : P 0 0 = .inf false)
    (h : IsLltF P L r) : r ≠ some 0 ∧ L 0 0 = .inf false ∧ ∀ i q, i ≠ 0 → P i 0 = .fin q → L i 0 = .fin 0 := by
  obtain ⟨B, hB, hL⟩ := h
  rw [List.finRange_succ] at hB
  have p0 : ∀ {x}, LltF.IsPivot 0 P x → x = .inf false := by
    intro x hx
    rw [LltF.IsPivot, if_pos (Fin.val_zero (n + 1)), h00] at hx
    exact hx
  have hnot : (0 : Fin (n + 1)) ∉ (List.finRange n).map Fin.succ := by simp
  cases hB with
  | stop hx h0 => rw [p0 hx] at h0; cases h0
  | @step _ _ _ _ A' _ _ hx _ hc hl =>
    cases p0 hx
    obtain ⟨c1, c2, -⟩ := hc
    refine ⟨fun hr => hnot (hl.mem 0 hr), ?_, fun i q hi hq => ?_⟩
    · rw [hL, if_pos le_rfl, hl.other hnot, c1]
      rfl
    · have hpos : 0 < i := Fin.pos_iff_ne_zero.2 hi
      obtain ⟨y, hy, e⟩ := c2 i hpos
      have hnil : LltF.left (0 : Fin (n + 1)) = [] := List.eq_nil_of_length_eq_zero (LltF.length_left _)
      rw [hnil, List.map_nil] at hy
      rw [hL, if_pos hpos.le, hl.other hnot, e, hy.length_one (a := P i 0) rfl, hq]
      rfl

/-- C122: if the first variance is 1 and the second at most the rounded square of the covariance of the two, the
decomposition gives up in the second column. -/
theorem C122_gives_up {P L : Matrix (Fin (n + 2)) (Fin (n + 2)) FP} {r : Option (Fin (n + 2))} {a b : ℚ} (ha : IsFloat a)
    (ha' : |a| ≤ 2 ^ 63) (h00 : P 0 0 = .fin 1) (h10 : P 1 0 = .fin a) (h11 : P 1 1 = .fin b)
    (hb : b ≤ binary32.round (a * a)) (h : IsLltF P L r) : r = some 1 := by
  obtain ⟨B, hB, -⟩ := h
  have e2 : List.finRange (n + 2) = 0 :: 1 :: ((List.finRange n).map Fin.succ).map Fin.succ := by
    rw [List.finRange_succ, List.finRange_succ]
    rfl
  rw [e2] at hB
  have p0 : ∀ {x}, LltF.IsPivot 0 P x → x = .fin 1 := by
    intro x hx
    rw [LltF.IsPivot, if_pos (Fin.val_zero (n + 2)), h00] at hx
    exact hx
  have hs1 : FP.sqrt binary32 (.fin 1) = .fin 1 := by decide +kernel
  cases hB with
  | stop hx h0 => rw [p0 hx] at h0; exact absurd h0 (by decide +kernel)
  | @step _ _ _ _ A' _ _ hx _ hc hl =>
    cases p0 hx
    obtain ⟨-, c2, c3⟩ := hc
    have hA1 : A' 1 1 = .fin b := by rw [c3 1 1 (.inl (by simp)), h11]
    have hA0 : A' 1 0 = .fin a := by
      obtain ⟨y, hy, e⟩ := c2 1 (by simp)
      have hnil : LltF.left (0 : Fin (n + 2)) = [] := List.eq_nil_of_length_eq_zero (LltF.length_left _)
      rw [hnil, List.map_nil] at hy
      rw [e, hy.length_one (a := P 1 0) rfl, h10, hs1]
      have hdiv : FP.div binary32 (.fin a) (.fin 1) = FP.ofRat binary32 (a / 1) := by
        simp only [FP.div, one_ne_zero, if_false]
      rw [hdiv, div_one, ha.ofRat32]
    have hpiv : ∀ {x}, LltF.IsPivot 1 A' x → x.le0 = true := by
      intro x hx
      rw [LltF.IsPivot, if_neg (by simp)] at hx
      obtain ⟨s, hs, rfl⟩ := hx
      have hone : LltF.left (1 : Fin (n + 2)) = [0] := by
        have hlen : (LltF.left (1 : Fin (n + 2))).length = 1 := LltF.length_left _
        obtain ⟨c, hc⟩ := List.length_eq_one_iff.1 hlen
        have : (0 : Fin (n + 2)) ∈ LltF.left 1 := LltF.mem_left.2 (by simp)
        rw [hc, List.mem_singleton] at this
        rw [hc, this]
      rw [hone, List.map_singleton, hA0] at hs
      have hprod : FP.mul binary32 (.fin a) (.fin a) = .fin (binary32.round (a * a)) := by
        refine b32_ofRat ?_
        rw [abs_mul]
        refine (mul_le_mul ha' ha' (abs_nonneg _) (by norm_num)).trans (by norm_num)
      rw [hs.length_one (a := FP.mul binary32 (.fin a) (.fin a)) rfl, hA1, hprod]
      exact LltF.le0_ofRat (by linarith)
    cases hl with
    | stop _ _ => rfl
    | step hx h0 _ _ => rw [hpiv hx] at h0; cases h0

end

/-- the covariance of an object whose x and y are almost fully correlated; the other variances are 4 -/
def nearlySingular : Matrix (Fin 5) (Fin 5) ℚ :=
  !![1, 1 + 5 / 2 ^ 14, 0, 0, 0;
     1 + 5 / 2 ^ 14, 1 + 5 / 2 ^ 13 + 1 / 2 ^ 23, 0, 0, 0;
     0, 0, 4, 0, 0;
     0, 0, 0, 4, 0;
     0, 0, 0, 0, 4]

/-- C122: positive definite is not enough.  For this covariance of `float`s the exact factor exists, but the decomposition
gives up in the second column whatever the order of the sums, and the variances 4 of speed, heading and turn rate are used as
standard deviations. -/
theorem C122_positive_definite_fails : (∀ i j, IsFloat (nearlySingular i j)) ∧ (real nearlySingular).PosDef ∧
    ∀ L r, IsLltF (finite nearlySingular) L r → r = some 1 ∧ L 2 2 = .fin 4 ∧ L 3 3 = .fin 4 ∧ L 4 4 = .fin 4 := by
  have ha : IsFloat (1 + 5 / 2 ^ 14) := by
    refine ⟨(2 ^ 14 + 5) * 2 ^ 9, -23, ⟨by norm_num, by norm_num, .inl (by norm_num)⟩, by norm_num, ?_⟩
    rw [abs_of_pos] <;> norm_num
  have hb : IsFloat (1 + 5 / 2 ^ 13 + 1 / 2 ^ 23) := by
    refine ⟨2 ^ 23 + 5 * 2 ^ 10 + 1, -23, ⟨by norm_num, by norm_num, .inl (by norm_num)⟩, by norm_num, ?_⟩
    rw [abs_of_pos] <;> norm_num
  have h0 : IsFloat 0 := isFloat_nat (n := 0) (by norm_num)
  have h1 : IsFloat 1 := by exact_mod_cast isFloat_nat (n := 1) (by norm_num)
  have h4 : IsFloat 4 := by exact_mod_cast isFloat_nat (n := 4) (by norm_num)
  refine ⟨?_, ?_, fun L r h => ?_⟩
  · intro i j
    fin_cases i <;> fin_cases j <;> first | exact h0 | exact h1 | exact h4 | exact ha | exact hb
  · have hc : IsCholesky (!![1, 0, 0, 0, 0; 1 + 5 / 2 ^ 14, √(7 / 2 ^ 28), 0, 0, 0; 0, 0, 2, 0, 0; 0, 0, 0, 2, 0;
        0, 0, 0, 0, 2] : Matrix (Fin 5) (Fin 5) ℝ) (real nearlySingular) := by
      have hsq : √(7 / 2 ^ 28 : ℝ) * √(7 / 2 ^ 28) = 7 / 2 ^ 28 := Real.mul_self_sqrt (by positivity)
      have hpos : 0 < √(7 / 2 ^ 28 : ℝ) := Real.sqrt_pos.2 (by positivity)
      refine ⟨?_, ?_, ?_⟩
      · intro i j hij
        fin_cases i <;> fin_cases j <;> first | rfl | exact absurd hij (by decide)
      · intro i
        fin_cases i
        · exact one_pos
        · exact hpos
        · exact two_pos
        · exact two_pos
        · exact two_pos
      · ext i j
        generalize √(7 / 2 ^ 28 : ℝ) = s at *
        fin_cases i <;> fin_cases j <;>
          simp [mul_apply, Fin.sum_univ_five, real, nearlySingular] <;> norm_num
        norm_num at hsq
        rw [hsq]
        norm_num
    exact hc.posDef
  · have hr : r = some 1 := C122_gives_up (n := 3) ha (by rw [abs_of_pos] <;> norm_num) (b := 1 + 5 / 2 ^ 13 + 1 / 2 ^ 23)
      rfl rfl rfl (by decide +kernel) h
    subst hr
    refine ⟨rfl, ?_, ?_, ?_⟩
    · exact C122_left_over h 2 2 (by decide)
    · exact C122_left_over h 3 3 (by decide)
    · exact C122_left_over h 4 4 (by decide)

/-- `C122_correlations`: variances 1, 4 and 1/100, correlations 1/8 and 1/16. -/
example : ∃ P : Matrix (Fin 3) (Fin 3) ℚ, P = !![1, 1 / 4, 1 / 80; 1 / 4, 4, 1 / 80; 1 / 80, 1 / 80, 1 / 100] ∧
    ∀ L r, IsLltF (finite P) L r → r = none := by
  refine ⟨_, rfl, fun L r h => (C122_correlations (by norm_num) ?_ ?_ ?_ ?_ h).1⟩
  · ext i j; fin_cases i <;> fin_cases j <;> rfl
  · intro i; fin_cases i <;> norm_num
  · intro i; fin_cases i <;> norm_num
  · intro i j hij
    fin_cases i <;> fin_cases j <;> first | exact absurd rfl hij | norm_num

/-- `C122_diagonal`: y known exactly.  The standard deviation of x is right, the variance 4 of the speed is used as it is. -/
example {L : Matrix (Fin 3) (Fin 3) FP} {r : Option (Fin 3)} (h : IsLltF (finite (diagonal ![4, 0, 4])) L r) :
    L 0 0 = .fin 2 ∧ L 2 2 = .fin 4 ∧ r = some 1 := by
  have hf : ∀ i, IsFloat ((![4, 0, 4] : Fin 3 → ℚ) i) := by
    intro i
    fin_cases i
    · exact_mod_cast isFloat_nat (n := 4) (by norm_num)
    · exact isFloat_nat (n := 0) (by norm_num)
    · exact_mod_cast isFloat_nat (n := 4) (by norm_num)
  obtain ⟨h1, h2⟩ := C122_diagonal hf h
  refine ⟨?_, ?_, (h2 1).2 ⟨le_rfl, fun j hj => ?_⟩⟩
  · rw [h1]
    show FP.fin (diagonal _ 0 0) = _
    rw [diagonal_apply_eq, if_pos fun j hj => by rw [Fin.le_zero_iff.1 hj]; norm_num]
    congr 1
    decide +kernel
  · rw [h1]
    show FP.fin (diagonal _ 2 2) = _
    rw [diagonal_apply_eq, if_neg fun hall => absurd (hall 1 (by decide)) (by norm_num)]
    rfl
  · have : j = 0 := by fin_cases j <;> first | rfl | exact absurd hj (by decide)
    subst this
    norm_num

/-- `C122_first_infinite`: x is not known at all, the variance of y is 4. -/
example {L : Matrix (Fin 2) (Fin 2) FP} {r : Option (Fin 2)} (h : IsLltF !![.inf false, .fin 1; .fin 1, .fin 4] L r) :
    L 0 0 = .inf false ∧ L 1 0 = .fin 0 :=
  have := C122_first_infinite rfl h
  ⟨this.2.1, this.2.2 1 1 (by decide) rfl⟩

/-- `C122_nan`: the variance of x is NaN.  The decomposition reports success. -/
example {L : Matrix (Fin 5) (Fin 5) FP} {r : Option (Fin 5)} {P : Matrix (Fin 5) (Fin 5) FP} (hP : P 0 0 = .nan)
    (h : IsLltF P L r) : r = none ∧ L 4 4 = .nan := by
  rcases C122_nan le_rfl hP h with ⟨k, hk, -⟩ | ⟨h1, h2⟩
  · exact absurd hk (by simp)
  · exact ⟨h1, h2 4 4 (by decide) (by decide)⟩

end Mot.Props
