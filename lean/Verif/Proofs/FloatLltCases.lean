import Verif.Proofs.FloatLlt
import Verif.Proofs.FloatMahalanobis
import Verif.Proofs.FloatPipeline
/-!
# Eigen's Cholesky decomposition in floating-point arithmetic: existence, what is left over, diagonal matrices, NaN
-/

namespace Mot.LltF

open Matrix Spec

variable {n : ℕ}

theorem mem_left {k l : Fin n} : l ∈ left k ↔ l < k := by simp [left]

theorem exists_sum {l : List FP} (h : l ≠ []) : ∃ x, SumsTo binary32 l x := by
  induction l with
  | nil => exact absurd rfl h
  | cons a l ih =>
    by_cases hl : l = []
    · subst hl; exact ⟨a, .one a⟩
    · obtain ⟨x, hx⟩ := ih hl
      exact ⟨_, .add (.one a) hx⟩

theorem exists_pivot (k : Fin n) (A : Matrix (Fin n) (Fin n) FP) : ∃ x, IsPivot k A x := by
  unfold IsPivot
  split
  · exact ⟨_, rfl⟩
  · rename_i hk
    obtain ⟨s, hs⟩ := exists_sum (l := (left k).map fun l => FP.mul binary32 (A k l) (A k l)) (by
      intro h
      have := congrArg List.length h
      rw [List.length_map, length_left] at this
      exact hk this)
    exact ⟨_, s, hs, rfl⟩

theorem exists_column (k : Fin n) (A : Matrix (Fin n) (Fin n) FP) (x : FP) : ∃ A', IsColumn k A x A' := by
  choose y hy using fun i => exists_sum
    (l := A i k :: (left k).map fun l => (FP.mul binary32 (A i l) (A k l)).neg) (by simp)
  refine ⟨fun i j => if j = k then if i = k then FP.sqrt binary32 x else if k < i then
    FP.div binary32 (y i) (FP.sqrt binary32 x) else A i j else A i j, ?_, fun i hi => ⟨y i, hy i, ?_⟩, fun i j h => ?_⟩
  · exact (if_pos rfl).trans (if_pos rfl)
  · exact (if_pos rfl).trans ((if_neg hi.ne').trans (if_pos hi))
  · rcases h with h | h
    · exact if_neg h
    · by_cases hj : j = k
      · exact (if_pos hj).trans ((if_neg h.ne).trans (if_neg (not_lt.2 h.le)))
      · exact if_neg hj

theorem exists_loop (ks : List (Fin n)) (A : Matrix (Fin n) (Fin n) FP) : ∃ B r, Loop ks A B r := by
  induction ks generalizing A with
  | nil => exact ⟨A, none, .nil A⟩
  | cons k ks ih =>
    obtain ⟨x, hx⟩ := exists_pivot k A
    cases h : x.le0 with
    | true => exact ⟨A, some k, .stop hx h⟩
    | false =>
      obtain ⟨A', hA⟩ := exists_column k A x
      obtain ⟨B, r, hB⟩ := ih A'
      exact ⟨B, r, .step hx h hA hB⟩

/-! ### what is left over -/

theorem Loop.mem {ks : List (Fin n)} {A B : Matrix (Fin n) (Fin n) FP} {r : Option (Fin n)} (h : Loop ks A B r) :
    ∀ k, r = some k → k ∈ ks := by
  induction h with
  | nil A => intro k hk; cases hk
  | stop h1 h2 => intro k hk; cases hk; exact List.mem_cons_self
  | step h1 h2 h3 h4 ih => exact fun k hk => List.mem_cons_of_mem _ (ih k hk)

/-- columns that are not visited -/
theorem Loop.other {ks : List (Fin n)} {A B : Matrix (Fin n) (Fin n) FP} {r : Option (Fin n)} (h : Loop ks A B r) {j : Fin n}
    (hj : j ∉ ks) (i : Fin n) : B i j = A i j := by
  induction h with
  | nil A => rfl
  | stop h1 h2 => rfl
  | step h1 h2 h3 h4 ih =>
    rw [List.mem_cons, not_or] at hj
    rw [ih hj.2, h3.2.2 i j (.inl hj.1)]

theorem Loop.rest {ks : List (Fin n)} {A B : Matrix (Fin n) (Fin n) FP} {r : Option (Fin n)} (h : Loop ks A B r)
    (hs : ks.Pairwise (· < ·)) : ∀ k, r = some k → ∀ i j, k ≤ j → B i j = A i j := by
  induction h with
  | nil A => intro k hk; cases hk
  | stop h1 h2 => intro k _ i j _; rfl
  | step h1 h2 h3 h4 ih =>
    intro k hk i j hj
    rw [List.pairwise_cons] at hs
    rw [ih hs.2 k hk i j hj]
    exact h3.2.2 i j (.inl ((hs.1 k (h4.mem k hk)).trans_le hj).ne')

theorem finRange_sorted : (List.finRange n).Pairwise (· < ·) := List.pairwise_lt_finRange n

/-! ### only the lower triangle is read -/

def Same (A A₂ : Matrix (Fin n) (Fin n) FP) : Prop := ∀ i j, j ≤ i → A i j = A₂ i j

theorem Same.symm {A A₂ : Matrix (Fin n) (Fin n) FP} (h : Same A A₂) : Same A₂ A := fun i j hij => (h i j hij).symm

theorem Same.pivot {A A₂ : Matrix (Fin n) (Fin n) FP} (h : Same A A₂) {k : Fin n} {x : FP} (hx : IsPivot k A x) :
    IsPivot k A₂ x := by
  unfold IsPivot at hx ⊢
  split at hx
  · rename_i hk; rw [if_pos hk, ← h k k le_rfl]; exact hx
  · rename_i hk
    rw [if_neg hk]
    obtain ⟨s, hs, rfl⟩ := hx
    refine ⟨s, ?_, by rw [h k k le_rfl]⟩
    have : ((left k).map fun l => FP.mul binary32 (A₂ k l) (A₂ k l)) =
        (left k).map fun l => FP.mul binary32 (A k l) (A k l) :=
      List.map_congr_left fun l hl => by rw [h k l (mem_left.1 hl).le]
    rwa [this]

theorem Same.column {A A₂ A' : Matrix (Fin n) (Fin n) FP} (h : Same A A₂) {k : Fin n} {x : FP} (hc : IsColumn k A x A') :
    ∃ A₂', IsColumn k A₂ x A₂' ∧ Same A' A₂' := by
  obtain ⟨c1, c2, c3⟩ := hc
  refine ⟨fun i j => if j = k ∧ k ≤ i then A' i j else A₂ i j, ⟨?_, fun i hi => ?_, fun i j hj => ?_⟩, fun i j hij => ?_⟩
  · exact (if_pos ⟨rfl, le_rfl⟩).trans c1
  · obtain ⟨y, hy, e⟩ := c2 i hi
    refine ⟨y, ?_, ?_⟩
    · have : (A₂ i k :: (left k).map fun l => (FP.mul binary32 (A₂ i l) (A₂ k l)).neg) =
          A i k :: (left k).map fun l => (FP.mul binary32 (A i l) (A k l)).neg := by
        rw [h i k hi.le]
        congr 1
        refine List.map_congr_left fun l hl => ?_
        have hl := mem_left.1 hl
        rw [h k l hl.le, h i l (hl.trans hi).le]
      rwa [this]
    · exact (if_pos ⟨rfl, hi.le⟩).trans e
  · refine if_neg ?_
    rintro ⟨e1, e2⟩
    rcases hj with hj | hj
    · exact hj e1
    · exact absurd e2 (not_le.2 hj)
  · show _ = if _ then _ else _
    split
    · rfl
    · rename_i hn
      rw [← h i j hij]
      refine c3 i j ?_
      by_contra hcon
      push Not at hcon
      exact hn hcon

theorem Same.loop {ks : List (Fin n)} {A B : Matrix (Fin n) (Fin n) FP} {r : Option (Fin n)} (h : Loop ks A B r) :
    ∀ {A₂}, Same A A₂ → ∃ B₂, Loop ks A₂ B₂ r ∧ Same B B₂ := by
  induction h with
  | nil A => exact fun h => ⟨_, .nil _, h⟩
  | stop h1 h2 => exact fun h => ⟨_, .stop (h.pivot h1) h2, h⟩
  | step h1 h2 h3 h4 ih =>
    intro A₂ h
    obtain ⟨A₂', c, s⟩ := h.column h3
    obtain ⟨B₂, l, s'⟩ := ih s
    exact ⟨B₂, .step (h.pivot h1) h2 c l, s'⟩

/-! ### diagonal matrices -/

theorem _root_.Mot.Spec.IsFloat.ofRat32 {q : ℚ} (h : IsFloat q) : FP.ofRat binary32 q = .fin q := by
  refine (if_pos ?_).trans (by rw [h.round])
  rw [h.round, b32_emax]
  obtain ⟨_, _, -, -, hb⟩ := h
  exact hb

theorem float_ge {d : ℚ} (h : IsFloat d) (hd : 0 < d) : 1 / 2 ^ 149 ≤ d := by
  obtain ⟨m, e, ⟨-, he, -⟩, rfl, -⟩ := h
  have hp := Fmt.two_zpow_pos e
  have hm : 1 ≤ m := by
    by_contra hm
    have : (m : ℚ) ≤ 0 := by exact_mod_cast (by omega : m ≤ 0)
    nlinarith
  have h1 : (2 : ℚ) ^ (-149 : ℤ) ≤ 2 ^ e := zpow_le_zpow_right₀ (by norm_num) he
  have h2 : (1 : ℚ) ≤ m := by exact_mod_cast hm
  have e1 : (2 : ℚ) ^ (-149 : ℤ) = 1 / 2 ^ 149 := by
    rw [show (-149 : ℤ) = -((149 : ℕ) : ℤ) by norm_num, _root_.zpow_neg, zpow_natCast, one_div]
  rw [e1] at h1
  nlinarith

theorem sqrt_float_pos {d : ℚ} (h : IsFloat d) (hd : 0 < d) : 0 < binary32.sqrt d := by
  have h1 := abs_le.1 (sqrt32_std hd.le)
  have h2 : 1 / 2 ^ 75 ≤ √(d : ℝ) := by
    refine Real.le_sqrt_of_sq_le ?_
    have := (Rat.cast_le (K := ℝ)).2 (float_ge h hd)
    push_cast at this
    refine le_trans ?_ this
    norm_num
  have : (0 : ℝ) < binary32.sqrt d := by
    norm_num at h1 h2
    linarith
  exact_mod_cast this

/-- the diagonal matrix with the first `m` entries replaced by their roots -/
def roots (d : Fin n → ℚ) (m : ℕ) : Matrix (Fin n) (Fin n) FP := fun i j =>
  if i = j then .fin (if i.1 < m then binary32.sqrt (d i) else d i) else .fin 0

theorem roots_ne (d : Fin n → ℚ) (m : ℕ) {i j : Fin n} (h : i ≠ j) : roots d m i j = .fin 0 := if_neg h

theorem roots_pivot {d : Fin n → ℚ} (hd : ∀ i, IsFloat (d i)) {k : Fin n} {x : FP} (hx : IsPivot k (roots d k) x) :
    x = .fin (d k) := by
  have e : roots d k k k = .fin (d k) := by
    show (if _ then _ else _) = _
    rw [if_pos rfl, if_neg (lt_irrefl _)]
  unfold IsPivot at hx
  split at hx
  · rw [hx, e]
  · obtain ⟨s, hs, rfl⟩ := hx
    rw [hs.zero (fun a ha => ?_), e]
    · show FP.ofRat binary32 (d k - 0) = _
      rw [sub_zero, (hd k).ofRat32]
    · obtain ⟨l, hl, rfl⟩ := List.mem_map.1 ha
      rw [roots_ne _ _ (mem_left.1 hl).ne']
      exact zero_mul_fin _ _

theorem roots_column {d : Fin n → ℚ} (hd : ∀ i, IsFloat (d i)) {k : Fin n} (hk : 0 < d k)
    {A' : Matrix (Fin n) (Fin n) FP} (hc : IsColumn k (roots d k) (.fin (d k)) A') : A' = roots d (k + 1) := by
  obtain ⟨c1, c2, c3⟩ := hc
  have hs : FP.sqrt binary32 (.fin (d k)) = .fin (binary32.sqrt (d k)) := if_neg (not_lt.2 hk.le)
  rw [hs] at c1 c2
  ext i j
  by_cases hij : i = j
  · subst hij
    show _ = if _ then _ else _
    rw [if_pos rfl]
    by_cases hik : i = k
    · subst hik
      rw [c1, if_pos (Nat.lt_succ_self _)]
    · rw [c3 i i (.inl hik)]
      show (if _ then _ else _) = _
      rw [if_pos rfl]
      have : i.1 ≠ k.1 := fun e => hik (Fin.ext e)
      by_cases h : i.1 < k.1
      · rw [if_pos h, if_pos (by omega)]
      · rw [if_neg h, if_neg (by omega)]
  · rw [roots_ne _ _ hij]
    by_cases hjk : j = k ∧ k < i
    · obtain ⟨rfl, hi⟩ := hjk
      obtain ⟨y, hy, e⟩ := c2 i hi
      rw [e, hy.zero (fun a ha => ?_)]
      · show (if _ then _ else _) = _
        rw [if_neg (sqrt_float_pos (hd j) hk).ne', zero_div, ofRat_zero]
      · rcases List.mem_cons.1 ha with rfl | ha
        · exact roots_ne _ _ hij
        · obtain ⟨l, hl, rfl⟩ := List.mem_map.1 ha
          have hl := mem_left.1 hl
          rw [roots_ne _ _ hl.ne', roots_ne _ _ (hl.trans hi).ne', zero_mul_fin]
          show FP.fin (-0) = _
          rw [neg_zero]
    · rw [c3 i j, roots_ne _ _ hij]
      by_cases h : j = k
      · right
        subst h
        exact lt_of_le_of_ne (not_lt.1 fun h' => hjk ⟨rfl, h'⟩) hij
      · exact .inl h

theorem roots_loop {d : Fin n → ℚ} (hd : ∀ i, IsFloat (d i)) (ks : List (Fin n)) (m : ℕ)
    (hks : ks = (List.finRange n).drop m) {C : Matrix (Fin n) (Fin n) FP} {r : Option (Fin n)}
    (hl : Loop ks (roots d m) C r) :
    (r = none ∧ C = roots d n ∧ ∀ j : Fin n, m ≤ j.1 → 0 < d j) ∨
    ∃ k : Fin n, r = some k ∧ C = roots d k ∧ d k ≤ 0 ∧ ∀ j : Fin n, m ≤ j.1 → j < k → 0 < d j := by
  induction ks generalizing m with
  | nil =>
    have hm : n ≤ m := by simpa using hks.symm
    cases hl
    refine .inl ⟨rfl, ?_, fun j hj => absurd hj (by omega)⟩
    ext i j
    show (if _ then _ else _) = if _ then _ else _
    rw [if_pos (show i.1 < m by omega), if_pos i.2]
  | cons k ks ih =>
    have hm : m < n := by
      by_contra hm
      rw [List.drop_eq_nil_of_le (by simpa using hm)] at hks
      cases hks
    rw [List.drop_eq_getElem_cons (by simpa using hm)] at hks
    obtain ⟨rfl, rfl⟩ := List.cons.inj hks
    have hk : ((List.finRange n)[m]'(by simpa using hm)).1 = m := by simp
    generalize (List.finRange n)[m]'(by simpa using hm) = k at *
    rw [← hk] at hl
    cases hl with
    | stop hx h0 =>
      rw [roots_pivot hd hx] at h0
      refine .inr ⟨k, rfl, rfl, of_decide_eq_true h0, fun j hj hjk => ?_⟩
      rw [Fin.lt_def] at hjk
      omega
    | step hx h0 hc hl =>
      cases roots_pivot hd hx
      have hpos : 0 < d k := not_le.1 (of_decide_eq_false h0)
      cases roots_column hd hpos hc
      rw [hk] at hl
      have key : ∀ j : Fin n, m ≤ j.1 → m + 1 ≤ j.1 ∨ j = k := fun j hj => by
        by_cases h : j.1 = m
        · exact .inr (Fin.ext (by omega))
        · exact .inl (by omega)
      rcases ih (m + 1) rfl hl with ⟨h1, h2, h3⟩ | ⟨k', h1, h2, h3, h4⟩
      · refine .inl ⟨h1, h2, fun j hj => ?_⟩
        rcases key j hj with h | rfl
        · exact h3 j h
        · exact hpos
      · refine .inr ⟨k', h1, h2, h3, fun j hj hjk => ?_⟩
        rcases key j hj with h | rfl
        · exact h4 j h hjk
        · exact hpos

/-! ### NaN -/

theorem nan_loop {i j : Fin n} (hij : j ≤ i) (ks : List (Fin n)) (m : ℕ) (hks : ks = (List.finRange n).drop m)
    {A C : Matrix (Fin n) (Fin n) FP} {r : Option (Fin n)} (hA : A i j = .nan)
    (hm : ∀ a b, b.1 < m → i ≤ b → b ≤ a → A a b = .nan) (hl : Loop ks A C r) :
    (∃ k, k < i ∧ r = some k) ∨ (r = none ∧ ∀ a b, i ≤ b → b ≤ a → C a b = .nan) := by
  induction ks generalizing m A with
  | nil =>
    cases hl
    have hn : n ≤ m := by simpa using hks.symm
    exact .inr ⟨rfl, fun a b => hm a b (by omega)⟩
  | cons k ks ih =>
    have hmn : m < n := by
      by_contra hm
      rw [List.drop_eq_nil_of_le (by simpa using hm)] at hks
      cases hks
    rw [List.drop_eq_getElem_cons (by simpa using hmn)] at hks
    obtain ⟨rfl, rfl⟩ := List.cons.inj hks
    have hk : ((List.finRange n)[m]'(by simpa using hmn)).1 = m := by simp
    generalize (List.finRange n)[m]'(by simpa using hmn) = k at *
    -- the pivot
    have hpiv : ∀ {x}, i ≤ k → IsPivot k A x → x = .nan := by
      intro x hik hx
      have hin : ∀ l, l < k → A k l = .nan → x = .nan := by
        intro l hlk hn
        unfold IsPivot at hx
        rw [if_neg (by rw [Fin.lt_def] at hlk; omega)] at hx
        obtain ⟨s, hs, rfl⟩ := hx
        rw [hs.nan (List.mem_map.2 ⟨l, mem_left.2 hlk, by rw [hn]; rfl⟩), sub_nan]
      rcases hik.eq_or_lt with rfl | hik
      · rcases hij.eq_or_lt with rfl | hij
        · unfold IsPivot at hx
          split at hx
          · rw [hx, hA]
          · obtain ⟨s, hs, rfl⟩ := hx
            rw [hA, nan_sub]
        · exact hin j hij hA
      · exact hin i hik (hm k i (by rw [Fin.lt_def] at hik; omega) le_rfl hik.le)
    cases hl with
    | stop hx h0 =>
      refine .inl ⟨k, ?_, rfl⟩
      by_contra hcon
      rw [hpiv (not_lt.1 hcon) hx] at h0
      cases h0
    | step hx h0 hc hl =>
      obtain ⟨c1, c2, c3⟩ := hc
      refine ih (m + 1) rfl ?_ ?_ hl
      · by_cases hjk : j = k
        · subst hjk
          rcases hij.eq_or_lt with rfl | hij
          · rw [c1, hpiv le_rfl hx]; rfl
          · obtain ⟨y, hy, e⟩ := c2 i hij
            rw [e, hy.nan (by rw [hA]; exact List.mem_cons_self), nan_div]
        · rw [c3 i j (.inl hjk), hA]
      · intro a b hb hib hba
        by_cases hbk : b = k
        · subst hbk
          have hn := hpiv hib hx
          rcases hba.eq_or_lt with rfl | hba
          · rw [c1, hn]; rfl
          · obtain ⟨y, hy, e⟩ := c2 a hba
            rw [e, hn]
            exact div_nan _ _
        · rw [c3 a b (.inl hbk)]
          have : b.1 ≠ k.1 := fun e => hbk (Fin.ext e)
          exact hm a b (by omega) hib hba

theorem le0_ofRat {q : ℚ} (h : q ≤ 0) : (FP.ofRat binary32 q).le0 = true := by
  unfold FP.ofRat
  split
  · refine decide_eq_true ?_
    have := binary32.round_nonneg (x := -q) (by linarith)
    rw [binary32.round_neg] at this
    linarith
  · rename_i hov
    refine decide_eq_true (lt_of_le_of_ne h ?_)
    rintro rfl
    rw [binary32.round_zero, abs_zero] at hov
    exact hov (Fmt.two_zpow_pos _)

end Mot.LltF
