import Verif.Spec.Llt
import Verif.Proofs.Cholesky
/-!
# Eigen's Cholesky decomposition, column by column
-/

namespace Mot.Llt

open Matrix Spec

variable {n : ℕ}

/-- the first `m` columns have been decomposed, the others are as in `P` -/
structure Inv (P : Matrix (Fin n) (Fin n) ℝ) (m : ℕ) (A : Matrix (Fin n) (Fin n) ℝ) : Prop where
  done : ∀ i j : Fin n, j.1 < m → j ≤ i → ∑ l with l < j, A i l * A j l + A i j * A j j = P i j
  pos : ∀ j : Fin n, j.1 < m → 0 < A j j
  rest : ∀ i j : Fin n, m ≤ j.1 ∨ i < j → A i j = P i j

theorem inv_zero (P : Matrix (Fin n) (Fin n) ℝ) : Inv P 0 P :=
  ⟨fun _ _ h => absurd h (Nat.not_lt_zero _), fun _ h => absurd h (Nat.not_lt_zero _), fun _ _ _ => rfl⟩

theorem inv_step {P A A' : Matrix (Fin n) (Fin n) ℝ} {k : Fin n} (h : Inv P k A) (hs : step k A = some A') :
    Inv P (k + 1) A' := by
  unfold step at hs
  simp only at hs
  split at hs
  · cases hs
  rename_i hx
  have hx := not_le.1 hx
  set x := A k k - ∑ l with l < k, A k l ^ 2 with hxd
  cases hs
  have hsq := Real.sqrt_pos.2 hx
  have hne : ∀ i j : Fin n, j ≠ k → (fun i j => if j = k then if i = k then √x else if k < i then
      (A i k - ∑ l with l < k, A i l * A k l) / √x else A i j else A i j) i j = A i j := by
    intro i j hj; simp only [if_neg hj]
  refine ⟨?_, ?_, ?_⟩
  · intro i j hj hij
    have hsum : ∀ i' i'', ∑ l with l < j, (if l = k then if i' = k then √x else if k < i' then
        (A i' k - ∑ l with l < k, A i' l * A k l) / √x else A i' l else A i' l) *
        (if l = k then if i'' = k then √x else if k < i'' then
        (A i'' k - ∑ l with l < k, A i'' l * A k l) / √x else A i'' l else A i'' l) =
        ∑ l with l < j, A i' l * A i'' l := by
      intro i' i''
      refine Finset.sum_congr rfl fun l hl => ?_
      have : l ≠ k := by
        have := (Finset.mem_filter.1 hl).2
        rintro rfl
        have : l.1 < j.1 := this
        omega
      rw [if_neg this, if_neg this]
    rw [hsum]
    by_cases hjk : j = k
    · subst hjk
      rw [if_pos rfl, if_pos rfl, if_pos rfl]
      by_cases hi : i = j
      · subst hi
        rw [if_pos rfl, Real.mul_self_sqrt hx.le, ← h.rest i i (.inl le_rfl), hxd]
        have : ∑ l with l < i, A i l * A i l = ∑ l with l < i, A i l ^ 2 :=
          Finset.sum_congr rfl fun l _ => (sq _).symm
        rw [this]; ring
      · have hlt : j < i := lt_of_le_of_ne hij (Ne.symm hi)
        rw [if_neg hi, if_pos hlt, div_mul_cancel₀ _ hsq.ne', ← h.rest i j (.inl le_rfl)]
        ring
    · rw [if_neg hjk, if_neg hjk]
      refine h.done i j ?_ hij
      have : j.1 ≠ k.1 := fun e => hjk (Fin.ext e)
      omega
  · intro j hj
    by_cases hjk : j = k
    · subst hjk
      rw [if_pos rfl, if_pos rfl]
      exact hsq
    · rw [if_neg hjk]
      refine h.pos j ?_
      have : j.1 ≠ k.1 := fun e => hjk (Fin.ext e)
      omega
  · intro i j hj
    by_cases hjk : j = k
    · subst hjk
      have hlt : i < j := by
        rcases hj with hj | hj
        · omega
        · exact hj
      rw [if_pos rfl, if_neg hlt.ne, if_neg (not_lt.2 hlt.le)]
      exact h.rest i j (.inr hlt)
    · rw [if_neg hjk]
      refine h.rest i j ?_
      rcases hj with hj | hj
      · exact .inl (by omega)
      · exact .inr hj

/-- how the loop ends -/
theorem loop_spec {P : Matrix (Fin n) (Fin n) ℝ} (ks : List (Fin n)) (m : ℕ)
    (hks : ks = (List.finRange n).drop m) {A : Matrix (Fin n) (Fin n) ℝ} (h : Inv P m A) :
    (∃ B, loop ks A = (B, none) ∧ Inv P n B) ∨
    ∃ B k, loop ks A = (B, some k) ∧ Inv P k B ∧ B k k ≤ ∑ l with l < k, B k l ^ 2 := by
  induction ks generalizing m A with
  | nil =>
    refine .inl ⟨A, rfl, ?_⟩
    have : n ≤ m := by simpa using hks.symm
    exact ⟨fun i j _ => h.done i j (by omega), fun j _ => h.pos j (by omega), fun i j hj => h.rest i j (by
      rcases hj with hj | hj
      · omega
      · exact .inr hj)⟩
  | cons k ks ih =>
    have hm : m < n := by
      by_contra hm
      rw [List.drop_eq_nil_of_le (by simpa using hm)] at hks
      cases hks
    rw [List.drop_eq_getElem_cons (by simpa using hm)] at hks
    obtain ⟨rfl, rfl⟩ := List.cons.inj hks
    have hk : ((List.finRange n)[m]'(by simpa using hm)).1 = m := by simp
    set k := (List.finRange n)[m]'(by simpa using hm)
    unfold loop
    cases hst : step k A with
    | none =>
      refine .inr ⟨A, k, rfl, hk ▸ h, ?_⟩
      unfold step at hst
      simp only at hst
      split at hst
      · rename_i hx; linarith
      · cases hst
    | some A' =>
      have hI := inv_step (k := k) (hk.symm ▸ h) hst
      rw [hk] at hI
      exact ih (m + 1) rfl hI

theorem unblocked_spec (P : Matrix (Fin n) (Fin n) ℝ) :
    (failed P = none ∧ Inv P n (unblocked P).1) ∨
    ∃ k, failed P = some k ∧ Inv P k (unblocked P).1 ∧
      P k k ≤ ∑ l with l < k, (unblocked P).1 k l ^ 2 := by
  rcases loop_spec (List.finRange n) 0 rfl (inv_zero P) with ⟨B, hB, h⟩ | ⟨B, k, hB, h, hk⟩
  · exact .inl ⟨by unfold failed unblocked; rw [hB], by unfold unblocked; rw [hB]; exact h⟩
  · refine .inr ⟨k, by unfold failed unblocked; rw [hB], by unfold unblocked; rw [hB]; exact h, ?_⟩
    unfold unblocked
    rw [hB, ← h.rest k k (.inl le_rfl)]
    exact hk

theorem sum_lower {m : ℕ} {L : Matrix (Fin m) (Fin m) ℝ} (hL : ∀ i j, i < j → L i j = 0) (i j : Fin m) :
    (L * Lᵀ) i j = ∑ l with l < j, L i l * L j l + L i j * L j j := by
  rw [mul_apply]
  simp only [transpose_apply]
  rw [← Finset.sum_filter_add_sum_filter_not Finset.univ (· < j)]
  congr 1
  rw [Finset.sum_eq_single j]
  · intro b hb hne
    have : j < b := lt_of_le_of_ne (not_lt.1 (Finset.mem_filter.1 hb).2) (Ne.symm hne)
    rw [hL j b this, mul_zero]
  · intro h
    exact absurd (Finset.mem_filter.2 ⟨Finset.mem_univ j, lt_irrefl j⟩) h

/-- sums over the columns to the left are the same in a leading block -/
theorem sum_castLE {m : ℕ} (hm : m ≤ n) (j : Fin m) (f : Fin n → ℝ) :
    ∑ l with l < Fin.castLE hm j, f l = ∑ l with l < j, f (Fin.castLE hm l) := by
  refine (Finset.sum_bij (fun (l : Fin m) _ => Fin.castLE hm l) ?_ ?_ ?_ ?_).symm
  · intro l hl
    exact Finset.mem_filter.2 ⟨Finset.mem_univ _, (Finset.mem_filter.1 hl).2⟩
  · intro a _ b _ hab
    exact Fin.castLE_injective hm hab
  · intro l hl
    have : l.1 < j.1 := (Finset.mem_filter.1 hl).2
    exact ⟨⟨l.1, by omega⟩, Finset.mem_filter.2 ⟨Finset.mem_univ _, this⟩, Fin.ext rfl⟩
  · intro l _; rfl

/-- the decomposed columns agree with the factor of any leading block -/
theorem inv_unique {P A : Matrix (Fin n) (Fin n) ℝ} {k m : ℕ} (h : Inv P k A) (hm : m ≤ n)
    {L : Matrix (Fin m) (Fin m) ℝ} (hL : IsCholesky L (leading P m hm)) :
    ∀ j i : Fin m, j.1 < k → j ≤ i → A (Fin.castLE hm i) (Fin.castLE hm j) = L i j := by
  have key : ∀ (q : ℕ) (j : Fin m), j.1 = q → j.1 < k → ∀ i, j ≤ i →
      A (Fin.castLE hm i) (Fin.castLE hm j) = L i j := by
    intro q
    induction q using Nat.strong_induction_on with
    | _ q ih =>
      intro j hj hjk
      have prod : ∀ i, j ≤ i → A (Fin.castLE hm i) (Fin.castLE hm j) * A (Fin.castLE hm j) (Fin.castLE hm j) =
          L i j * L j j := by
        intro i hij
        have h1 := h.done (Fin.castLE hm i) (Fin.castLE hm j) hjk hij
        have h2 := congrFun (congrFun hL.factor i) j
        rw [sum_lower hL.lower] at h2
        have h3 : P (Fin.castLE hm i) (Fin.castLE hm j) = leading P m hm i j := rfl
        rw [sum_castLE hm j (fun l => A (Fin.castLE hm i) l * A (Fin.castLE hm j) l), h3, ← h2] at h1
        have h4 : ∑ l with l < j, A (Fin.castLE hm i) (Fin.castLE hm l) * A (Fin.castLE hm j) (Fin.castLE hm l) =
            ∑ l with l < j, L i l * L j l := by
          refine Finset.sum_congr rfl fun l hl => ?_
          have hl : l.1 < j.1 := (Finset.mem_filter.1 hl).2
          have hij' : j.1 ≤ i.1 := hij
          rw [ih l.1 (by omega) l rfl (by omega) i (by rw [Fin.le_def]; omega),
            ih l.1 (by omega) l rfl (by omega) j (by rw [Fin.le_def]; omega)]
        rw [h4] at h1
        linarith
      have hd : A (Fin.castLE hm j) (Fin.castLE hm j) = L j j := by
        have h1 := prod j le_rfl
        have h2 := h.pos (Fin.castLE hm j) hjk
        have h3 := hL.diag j
        nlinarith
      intro i hij
      have := prod i hij
      rw [← hd] at this
      exact mul_right_cancel₀ (h.pos (Fin.castLE hm j) hjk).ne' this
  exact fun j i hj hij => key j.1 j rfl hj i hij

/-- the decomposed columns are the factor of the leading block -/
theorem inv_factor {P A : Matrix (Fin n) (Fin n) ℝ} {k : ℕ} (hk : k ≤ n) (h : Inv P k A) (hP : Pᵀ = P) :
    IsCholesky (lowerPart (leading A k hk)) (leading P k hk) := by
  have hlow : ∀ i j : Fin k, i < j → lowerPart (leading A k hk) i j = 0 := fun i j hij => if_neg (not_le.2 hij)
  have hle : ∀ i j : Fin k, j ≤ i → lowerPart (leading A k hk) i j = A (Fin.castLE hk i) (Fin.castLE hk j) :=
    fun i j hij => if_pos hij
  refine ⟨hlow, fun i => ?_, ?_⟩
  · rw [hle i i le_rfl]
    exact h.pos _ i.2
  · have key : ∀ i j : Fin k, j ≤ i →
        (lowerPart (leading A k hk) * (lowerPart (leading A k hk))ᵀ) i j = leading P k hk i j := by
      intro i j hij
      rw [sum_lower hlow, hle i j hij, hle j j le_rfl]
      have h1 := h.done (Fin.castLE hk i) (Fin.castLE hk j) j.2 hij
      rw [sum_castLE hk j (fun l => A (Fin.castLE hk i) l * A (Fin.castLE hk j) l)] at h1
      show _ = P (Fin.castLE hk i) (Fin.castLE hk j)
      rw [← h1]
      congr 1
      refine Finset.sum_congr rfl fun l hl => ?_
      have hl := (Finset.mem_filter.1 hl).2
      rw [hle i l (hl.le.trans hij), hle j l hl.le]
    ext i j
    rcases le_total j i with hij | hij
    · exact key i j hij
    · have h1 := key j i hij
      have hs : leading P k hk i j = leading P k hk j i :=
        congrFun (congrFun hP (Fin.castLE hk j)) (Fin.castLE hk i)
      rw [hs, ← h1, mul_apply, mul_apply]
      exact Finset.sum_congr rfl fun l _ => mul_comm _ _

theorem leading_self (P : Matrix (Fin n) (Fin n) ℝ) : leading P n le_rfl = P := rfl

theorem leading_posDef {P : Matrix (Fin n) (Fin n) ℝ} (hP : P.PosDef) (m : ℕ) (hm : m ≤ n) :
    (leading P m hm).PosDef := hP.submatrix (Fin.castLE_injective hm)

/-- where the decomposition stops -/
theorem failed_spec {P : Matrix (Fin n) (Fin n) ℝ} (hP : Pᵀ = P) :
    (failed P = none → P.PosDef) ∧ ∀ k, failed P = some k →
      (leading P k k.2.le).PosDef ∧ ¬ (leading P (k + 1) k.2).PosDef := by
  rcases unblocked_spec P with ⟨hf, h⟩ | ⟨k, hf, h, hx⟩
  · refine ⟨fun _ => ?_, fun k hk => by rw [hf] at hk; cases hk⟩
    exact (inv_factor le_rfl h hP).posDef
  · refine ⟨fun h0 => (by rw [hf] at h0; cases h0), fun k' hk' => ?_⟩
    rw [hf] at hk'
    cases hk'
    refine ⟨(inv_factor k.2.le h hP).posDef, fun hp => ?_⟩
    obtain ⟨L, hL⟩ := exists_cholesky hp
    have hu := inv_unique h k.2 hL
    have hkk := congrFun (congrFun hL.factor (Fin.last k.1)) (Fin.last k.1)
    rw [sum_lower hL.lower] at hkk
    have e : leading P (k + 1) k.2 (Fin.last k.1) (Fin.last k.1) = P k k := rfl
    have hs := sum_castLE (n := n) k.2 (Fin.last k.1) (fun l => (unblocked P).1 k l ^ 2)
    rw [show Fin.castLE k.2 (Fin.last k.1) = k from Fin.ext rfl] at hs
    rw [hs] at hx
    have hs' : ∑ l with l < Fin.last k.1, (unblocked P).1 k (Fin.castLE k.2 l) ^ 2 =
        ∑ l with l < Fin.last k.1, L (Fin.last k.1) l * L (Fin.last k.1) l := by
      refine Finset.sum_congr rfl fun l hl => ?_
      have hl : l.1 < k.1 := (Finset.mem_filter.1 hl).2
      rw [← hu l (Fin.last k.1) hl (Fin.le_last _)]
      rw [sq]
      rfl
    rw [hs', ← e, ← hkk] at hx
    have := mul_pos (hL.diag (Fin.last k.1)) (hL.diag (Fin.last k.1))
    linarith

end Mot.Llt

namespace Mot.Llt

open Matrix Spec

variable {n : ℕ}

theorem step_lower {A B : Matrix (Fin n) (Fin n) ℝ} (h : lowerPart A = lowerPart B) (k : Fin n) :
    (step k A = none ∧ step k B = none) ∨
    ∃ A' B', step k A = some A' ∧ step k B = some B' ∧ lowerPart A' = lowerPart B' := by
  have he : ∀ {i j : Fin n}, j ≤ i → A i j = B i j := by
    intro i j hij
    have := congrFun (congrFun h i) j
    unfold lowerPart at this
    rwa [if_pos hij, if_pos hij] at this
  have hx : A k k - ∑ l with l < k, A k l ^ 2 = B k k - ∑ l with l < k, B k l ^ 2 := by
    rw [he le_rfl]
    congr 1
    exact Finset.sum_congr rfl fun l hl => by rw [he (Finset.mem_filter.1 hl).2.le]
  unfold step
  simp only
  rw [hx]
  split
  · exact .inl ⟨rfl, rfl⟩
  · refine .inr ⟨_, _, rfl, rfl, ?_⟩
    funext i j
    unfold lowerPart
    split
    · rename_i hij
      show (if j = k then _ else _) = (if j = k then _ else _)
      split
      · split
        · rfl
        · split
          · rename_i hki
            rw [he hki.le]
            congr 2
            refine Finset.sum_congr rfl fun l hl => ?_
            have hl := (Finset.mem_filter.1 hl).2
            rw [he hl.le, he (hl.trans hki).le]
          · exact he hij
      · exact he hij
    · rfl

theorem loop_lower (ks : List (Fin n)) {A B : Matrix (Fin n) (Fin n) ℝ} (h : lowerPart A = lowerPart B) :
    lowerPart (loop ks A).1 = lowerPart (loop ks B).1 ∧ (loop ks A).2 = (loop ks B).2 := by
  induction ks generalizing A B with
  | nil => exact ⟨h, rfl⟩
  | cons k ks ih =>
    unfold loop
    rcases step_lower h k with ⟨h1, h2⟩ | ⟨A', B', h1, h2, h3⟩
    · rw [h1, h2]; exact ⟨h, rfl⟩
    · rw [h1, h2]; exact ih h3

theorem step_diagonal (f : Fin n → ℝ) (k : Fin n) :
    step k (diagonal f) = if f k ≤ 0 then none else some (diagonal (Function.update f k √(f k))) := by
  have hz : ∀ i, ∑ l with l < k, diagonal f i l * diagonal f k l = 0 := fun i =>
    Finset.sum_eq_zero fun l hl => by
      rw [diagonal_apply_ne _ (Finset.mem_filter.1 hl).2.ne', mul_zero]
  have hx : diagonal f k k - ∑ l with l < k, diagonal f k l ^ 2 = f k := by
    rw [Finset.sum_congr rfl fun l _ => sq (diagonal f k l), hz, diagonal_apply_eq, sub_zero]
  unfold step
  simp only
  rw [hx]
  split
  · rfl
  · congr 1
    funext i j
    by_cases hj : j = k
    · subst hj
      rw [if_pos rfl]
      by_cases hi : i = j
      · subst hi
        rw [if_pos rfl, diagonal_apply_eq, Function.update_self]
      · rw [if_neg hi, hz, diagonal_apply_ne _ hi, diagonal_apply_ne _ hi]
        simp
    · rw [if_neg hj]
      by_cases hi : i = j
      · subst hi
        rw [diagonal_apply_eq, diagonal_apply_eq, Function.update_of_ne hj]
      · rw [diagonal_apply_ne _ hi, diagonal_apply_ne _ hi]

open Classical in
/-- what is left of a diagonal: square roots up to the first entry that is not positive -/
noncomputable def roots (d : Fin n → ℝ) (i : Fin n) : ℝ := if ∀ j ≤ i, 0 < d j then √(d i) else d i

theorem loop_diagonal {d : Fin n → ℝ} (ks : List (Fin n)) (m : ℕ) (hks : ks = (List.finRange n).drop m) {f : Fin n → ℝ}
    (h1 : ∀ i : Fin n, i.1 < m → 0 < d i ∧ f i = √(d i)) (h2 : ∀ i : Fin n, m ≤ i.1 → f i = d i) :
    (loop ks (diagonal f)).1 = diagonal (roots d) := by
  induction ks generalizing m f with
  | nil =>
    have hm : n ≤ m := by simpa using hks.symm
    show diagonal f = _
    congr 1
    funext i
    unfold roots
    rw [if_pos fun j _ => (h1 j (by omega)).1, (h1 i (by omega)).2]
  | cons k ks ih =>
    have hm : m < n := by
      by_contra hm
      rw [List.drop_eq_nil_of_le (by simpa using hm)] at hks
      cases hks
    rw [List.drop_eq_getElem_cons (by simpa using hm)] at hks
    obtain ⟨hk', rfl⟩ := List.cons.inj hks
    have hk : k.1 = m := by rw [hk']; simp
    unfold loop
    rw [step_diagonal, h2 k hk.ge]
    by_cases hd : d k ≤ 0
    · rw [if_pos hd]
      show diagonal f = _
      congr 1
      funext i
      unfold roots
      by_cases hi : i.1 < m
      · rw [if_pos fun (j : Fin n) (hj : j ≤ i) => (h1 j (lt_of_le_of_lt (Fin.le_def.1 hj) hi)).1, (h1 i hi).2]
      · rw [if_neg fun hall => absurd (hall k (by rw [Fin.le_def]; omega)) (not_lt.2 hd), h2 i (by omega)]
    · rw [if_neg hd]
      refine ih (m + 1) rfl ?_ ?_
      · intro i hi
        by_cases hik : i = k
        · subst hik
          rw [Function.update_self]
          exact ⟨not_le.1 hd, rfl⟩
        · rw [Function.update_of_ne hik]
          refine h1 i ?_
          have : i.1 ≠ k.1 := fun e => hik (Fin.ext e)
          omega
      · intro i hi
        rw [Function.update_of_ne (by rintro rfl; omega)]
        exact h2 i (by omega)

theorem matrixL_diagonal (d : Fin n → ℝ) : matrixL (diagonal d) = diagonal (roots d) := by
  have h := loop_diagonal (d := d) (List.finRange n) 0 rfl (f := d) (fun i hi => absurd hi (Nat.not_lt_zero _))
    fun _ _ => rfl
  funext i j
  unfold matrixL unblocked
  rw [h]
  split
  · rfl
  · rename_i hij
    rw [diagonal_apply_ne _ (not_le.1 hij).ne]

/-- the procedure gives up at once if the first entry is not positive -/
theorem matrixL_first {P : Matrix (Fin (n + 1)) (Fin (n + 1)) ℝ} (h : P 0 0 ≤ 0) : matrixL P = lowerPart P := by
  have hs : step 0 P = none := by
    unfold step
    simp only
    rw [if_pos]
    simpa using h
  funext i j
  unfold matrixL unblocked lowerPart
  rw [List.finRange_succ]
  unfold loop
  rw [hs]

end Mot.Llt
