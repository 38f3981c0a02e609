import Verif.Model.FloatFusing
import Verif.Proofs.FloatDiagonal
import Verif.Proofs.FloatPredict
/-!
# Special values in fusing
-/

namespace Mot

open Spec List

variable {n : ℕ}

theorem notFin_conv {f : Fmt} {x : FP} (h : x.NotFin) : (FP.conv f x).NotFin := by
  cases x with
  | nan => exact h
  | inf s => exact h
  | fin q => exact absurd rfl (h q)

theorem rotateYawF_notFin {w : Fin n → FP} {i : Fin n} (h : (w i).NotFin) :
    (rotateYawF w i).NotFin := by
  unfold rotateYawF
  split
  · exact notFin_conv (notFin_sub_left h)
  · exact h

theorem mem_ofFn_of {α : Type} (f : Fin n → α) (j : Fin n) : f j ∈ List.ofFn f :=
  List.mem_ofFn.2 ⟨j, rfl⟩

/-- anything that is not finite spreads to the row -/
theorem IsScaledRowF.notFin [NeZero n] {w : FP} {row v : Fin n → FP} {x : FP}
    (h : IsScaledRowF w row v x) (hn : w.NotFin ∨ ∃ j, (row j).NotFin ∨ (v j).NotFin) :
    x.NotFin := by
  have hj : ∃ j, w.NotFin ∨ (row j).NotFin ∨ (v j).NotFin := by
    rcases hn with h | ⟨j, h⟩
    · exact ⟨0, .inl h⟩
    · exact ⟨j, .inr h⟩
  rcases h with h | h | ⟨y, h, rfl⟩
  · obtain ⟨j, hj⟩ := hj
    refine h.notFin ⟨_, mem_ofFn_of _ j, ?_⟩
    rcases hj with hj | hj | hj
    · exact notFin_mul (.inl (notFin_mul (.inl hj)))
    · exact notFin_mul (.inl (notFin_mul (.inr hj)))
    · exact notFin_mul (.inr hj)
  · obtain ⟨j, hj⟩ := hj
    refine h.notFin ⟨_, mem_ofFn_of _ j, ?_⟩
    rcases hj with hj | hj | hj
    · exact notFin_mul (.inr (notFin_mul (.inl hj)))
    · exact notFin_mul (.inl hj)
    · exact notFin_mul (.inr (notFin_mul (.inr hj)))
  · rcases hn with hw | ⟨j, hj⟩
    · exact notFin_mul (.inl hw)
    · refine notFin_mul (.inr (h.notFin ⟨_, mem_ofFn_of _ j, notFin_mul hj⟩))

/-- NaN spreads to the row -/
theorem IsScaledRowF.nan [NeZero n] {w : FP} {row v : Fin n → FP} {x : FP}
    (h : IsScaledRowF w row v x) (hn : w = .nan ∨ ∃ j, row j = .nan ∨ v j = .nan) : x = .nan := by
  have mn : ∀ a : FP, FP.mul binary32 a .nan = .nan := fun a => by cases a <;> rfl
  have hj : ∃ j, w = .nan ∨ row j = .nan ∨ v j = .nan := by
    rcases hn with h | ⟨j, h⟩
    · exact ⟨0, .inl h⟩
    · exact ⟨j, .inr h⟩
  rcases h with h | h | ⟨y, h, rfl⟩
  · obtain ⟨j, hj⟩ := hj
    refine h.nan (List.mem_ofFn.2 ⟨j, ?_⟩)
    rcases hj with hj | hj | hj <;> simp only [hj, mn, nan_mul]
  · obtain ⟨j, hj⟩ := hj
    refine h.nan (List.mem_ofFn.2 ⟨j, ?_⟩)
    rcases hj with hj | hj | hj <;> simp only [hj, mn, nan_mul]
  · rcases hn with hw | ⟨j, hj⟩
    · rw [hw, nan_mul]
    · rw [h.nan (List.mem_ofFn.2 ⟨j, by rcases hj with hj | hj <;> simp only [hj, mn, nan_mul]⟩), mn]

section
variable [NeZero n] {E : EigenF} {m₁ m₂ : Fin n → FP} {A₁ A₂ : Matrix (Fin n) (Fin n) FP} {w : FP}
  {x : Fin n → FP} {C : Matrix (Fin n) (Fin n) FP}

theorem IsIntersectionF.notFin (h : IsIntersectionF E m₁ A₁ m₂ A₂ w x C)
    (hn : w.NotFin ∨ (∃ i, (m₁ i).NotFin) ∨ (∃ i, (m₂ i).NotFin) ∨ (∃ i j, (A₁ i j).NotFin) ∨
      ∃ i j, (A₂ i j).NotFin) (i : Fin n) : (x i).NotFin := by
  obtain ⟨-, s₁, s₂, h₁, h₂, h3⟩ := h
  have hs : ∃ j, (s₁ j).NotFin ∨ (s₂ j).NotFin := by
    rcases hn with h | ⟨k, h⟩ | ⟨k, h⟩ | ⟨k, l, h⟩ | ⟨k, l, h⟩
    · exact ⟨0, .inl ((h₁ 0).notFin (.inl h))⟩
    · exact ⟨0, .inl ((h₁ 0).notFin (.inr ⟨k, .inr (rotateYawF_notFin h)⟩))⟩
    · exact ⟨0, .inr ((h₂ 0).notFin (.inr ⟨k, .inr (rotateYawF_notFin h)⟩))⟩
    · exact ⟨k, .inl ((h₁ k).notFin (.inr ⟨l, .inl h⟩))⟩
    · exact ⟨k, .inr ((h₂ k).notFin (.inr ⟨l, .inl h⟩))⟩
  obtain ⟨j, hj⟩ := hs
  exact (h3 i).notFin ⟨_, mem_ofFn_of _ j, notFin_mul (.inr (notFin_add hj))⟩

theorem IsIntersectionF.nan (h : IsIntersectionF E m₁ A₁ m₂ A₂ w x C)
    (hn : w = .nan ∨ (∃ i, m₁ i = .nan) ∨ (∃ i, m₂ i = .nan) ∨ (∃ i j, A₁ i j = .nan) ∨
      ∃ i j, A₂ i j = .nan) (i : Fin n) : x i = .nan := by
  obtain ⟨-, s₁, s₂, h₁, h₂, h3⟩ := h
  have rn : ∀ {m : Fin n → FP} {k}, m k = .nan → rotateYawF m k = .nan := by
    intro m k hk
    unfold rotateYawF
    rw [hk, nan_sub]
    split <;> rfl
  have hs : ∃ j, s₁ j = .nan ∨ s₂ j = .nan := by
    rcases hn with h | ⟨k, h⟩ | ⟨k, h⟩ | ⟨k, l, h⟩ | ⟨k, l, h⟩
    · exact ⟨0, .inl ((h₁ 0).nan (.inl h))⟩
    · exact ⟨0, .inl ((h₁ 0).nan (.inr ⟨k, .inr (rn h)⟩))⟩
    · exact ⟨0, .inr ((h₂ 0).nan (.inr ⟨k, .inr (rn h)⟩))⟩
    · exact ⟨k, .inl ((h₁ k).nan (.inr ⟨l, .inl h⟩))⟩
    · exact ⟨k, .inr ((h₂ k).nan (.inr ⟨l, .inl h⟩))⟩
  obtain ⟨j, hj⟩ := hs
  have mn : ∀ a : FP, FP.mul binary32 a .nan = .nan := fun a => by cases a <;> rfl
  refine (h3 i).nan (List.mem_ofFn.2 ⟨j, ?_⟩)
  rcases hj with hj | hj
  · show FP.mul _ _ (FP.add _ _ _) = _
    rw [hj, nan_add, mn]
  · show FP.mul _ _ (FP.add _ _ _) = _
    rw [hj, add_nan, mn]

end

/-! ### Weight -/

theorem weight_overflow {E : EigenF} {A₁ A₂ : Matrix (Fin n) (Fin n) FP}
    (h : (E.det fun i j => FP.add binary32 (A₁ i j) (A₂ i j)).NotFin) :
    generateWeightF E A₁ A₂ = .nan := by
  unfold generateWeightF
  simp only
  generalize (E.det fun i j => FP.add binary32 (A₁ i j) (A₂ i j)) = dS at *
  have h2 : (FP.mul binary32 (.fin 2) dS).NotFin := notFin_mul (.inr h)
  have h1 : (FP.add binary32 (FP.sub binary32 dS (E.det A₂)) (E.det A₁)).NotFin :=
    notFin_add (.inl (notFin_sub_left h))
  generalize FP.mul binary32 (.fin 2) dS = b at *
  generalize FP.add binary32 (FP.sub binary32 dS (E.det A₂)) (E.det A₁) = a at *
  cases a with
  | nan => rfl
  | inf s => cases b with
    | nan => rfl
    | inf t => rfl
    | fin q => exact absurd rfl (h2 q)
  | fin q => exact absurd rfl (h1 q)

theorem weight_underflow {E : EigenF} {A₁ A₂ : Matrix (Fin n) (Fin n) FP}
    (h₁ : E.det A₁ = .fin 0) (h₂ : E.det A₂ = .fin 0)
    (h : (E.det fun i j => FP.add binary32 (A₁ i j) (A₂ i j)) = .fin 0) :
    generateWeightF E A₁ A₂ = .nan := by
  unfold generateWeightF
  simp only
  rw [h₁, h₂, h]
  decide +kernel

/-! ### Products -/

theorem b32_round_pow (k : ℕ) : binary32.round (2 ^ k) = 2 ^ k := by
  have := binary32.round_exact (m := 1) (j := k) (by decide) (le_trans (by decide) (Int.natCast_nonneg k))
  simpa using this

theorem b32_round_pow_neg {k : ℕ} (hk : k ≤ 149) : binary32.round (1 / 2 ^ k) = 1 / 2 ^ k := by
  have := binary32.round_exact (m := 1) (j := -(k : ℤ)) (by decide) (by
    show (-149 : ℤ) ≤ _
    omega)
  simpa [zpow_neg] using this

theorem ofRat_fin {x q : ℚ} (h : FP.ofRat binary32 x = .fin q) : q = binary32.round x ∧ |q| < 2 ^ 128 := by
  unfold FP.ofRat at h
  split at h
  · rename_i hlt
    cases h
    exact ⟨rfl, hlt⟩
  · cases h

namespace ProdTree

theorem leaves_pos (T : ProdTree n) : 0 < T.leaves.length := by
  induction T with
  | leaf i => exact Nat.zero_lt_one
  | node l r hl hr => simp only [leaves, List.length_append]; omega

/-- products of large numbers -/
theorem eval_large (T : ProdTree n) {k : ℕ} {v : Fin n → ℚ} (hv : ∀ i, 2 ^ k ≤ v i)
    (hv' : ∀ i, v i < 2 ^ 128) :
    (T.eval fun i => .fin (v i)) = .inf false ∨
      ∃ q, (T.eval fun i => .fin (v i)) = .fin q ∧ 2 ^ (k * T.leaves.length) ≤ q ∧ q < 2 ^ 128 := by
  induction T with
  | leaf i => exact .inr ⟨v i, rfl, by simpa [leaves] using hv i, hv' i⟩
  | node l r hl hr =>
    simp only [eval, leaves, List.length_append]
    have one : ∀ m : ℕ, (0 : ℚ) < 2 ^ m := fun m => by positivity
    rcases hl with hl | ⟨p, hl, hp, -⟩ <;> rcases hr with hr | ⟨q, hr, hq, -⟩ <;> rw [hl, hr]
    · exact .inl rfl
    · have : 0 < q := lt_of_lt_of_le (one _) hq
      exact .inl (by simp [FP.mul, this.ne', this.le])
    · have : 0 < p := lt_of_lt_of_le (one _) hp
      exact .inl (by simp [FP.mul, this.ne', this.le])
    · have hpq : 2 ^ (k * (l.leaves.length + r.leaves.length)) ≤ p * q := by
        rw [mul_add, pow_add]
        exact mul_le_mul hp hq (one _).le ((one _).le.trans hp)
      have h0 : 0 ≤ p * q := (one _).le.trans hpq
      show FP.ofRat binary32 (p * q) = _ ∨ ∃ q', FP.ofRat binary32 (p * q) = _ ∧ _
      have hn := notNeg_ofRat (f := binary32) h0
      have hr := binary32.round_mono (by decide) (one _).le hpq
      rw [b32_round_pow] at hr
      cases h : FP.ofRat binary32 (p * q) with
      | nan => rcases ofRat_cases binary32 (p * q) with ⟨s, hs⟩ | ⟨x, hx, -⟩
               · rw [h] at hs; cases hs
               · rw [h] at hx; cases hx
      | inf s => cases s with
        | true => exact absurd h hn.1
        | false => exact .inl rfl
      | fin x =>
        obtain ⟨rfl, hx⟩ := ofRat_fin h
        exact .inr ⟨_, rfl, hr, (le_abs_self _).trans_lt hx⟩

theorem eval_overflow (T : ProdTree n) {k : ℕ} {v : Fin n → ℚ} (hv : ∀ i, 2 ^ k ≤ v i)
    (hv' : ∀ i, v i < 2 ^ 128) (hk : 128 ≤ k * T.leaves.length) :
    (T.eval fun i => .fin (v i)) = .inf false := by
  rcases T.eval_large hv hv' with h | ⟨q, -, h1, h2⟩
  · exact h
  · exact absurd (h1.trans_lt h2) (not_lt.2 (pow_le_pow_right₀ (by norm_num) hk))

/-- products of small numbers -/
theorem eval_small (T : ProdTree n) {k : ℕ} (hk : k ≤ 149) {v : Fin n → ℚ} (hv : ∀ i, 0 ≤ v i)
    (hv' : ∀ i, v i ≤ 1 / 2 ^ k) :
    ∃ q, (T.eval fun i => .fin (v i)) = .fin q ∧ 0 ≤ q ∧ q ≤ 1 / 2 ^ (k * T.leaves.length) ∧
      (150 ≤ k * T.leaves.length → q = 0) := by
  induction T with
  | leaf i => exact ⟨v i, rfl, hv i, by simpa [leaves] using hv' i, fun h => by simp [leaves] at h; omega⟩
  | node l r hl hr =>
    obtain ⟨p, hl, p0, hp, -⟩ := hl
    obtain ⟨q, hr, q0, hq, -⟩ := hr
    simp only [eval, leaves, List.length_append]
    rw [hl, hr]
    have h0 := mul_nonneg p0 q0
    have hpq : p * q ≤ 1 / 2 ^ (k * (l.leaves.length + r.leaves.length)) := by
      rw [mul_add, pow_add, ← one_div_mul_one_div]
      exact mul_le_mul hp hq q0 (by positivity)
    generalize k * (l.leaves.length + r.leaves.length) = m at *
    have hone : (1 : ℚ) / 2 ^ m ≤ 1 := by
      rw [div_le_one (by positivity)]
      exact one_le_pow₀ (by norm_num)
    show ∃ q', FP.ofRat binary32 (p * q) = _ ∧ _
    by_cases hm : 150 ≤ m
    · refine ⟨0, b32_ofRat_tiny h0 (hpq.trans ?_), le_rfl, by positivity, fun _ => rfl⟩
      exact one_div_le_one_div_of_le (by positivity) (pow_le_pow_right₀ (by norm_num) hm)
    · refine ⟨binary32.round (p * q), b32_ofRat ?_, binary32.round_nonneg h0, ?_, fun h => absurd h hm⟩
      · rw [abs_of_nonneg h0]
        exact (hpq.trans hone).trans (by norm_num)
      · have := binary32.round_mono (by decide) h0 hpq
        rwa [b32_round_pow_neg (by omega)] at this

/-- products are monotone -/
theorem eval_mono (T : ProdTree n) {v w : Fin n → ℚ} (hv : ∀ i, 0 ≤ v i) (hvw : ∀ i, v i ≤ w i)
    {y : ℚ} (hy : (T.eval fun i => .fin (w i)) = .fin y) :
    ∃ x, (T.eval fun i => .fin (v i)) = .fin x ∧ 0 ≤ x ∧ x ≤ y := by
  induction T generalizing y with
  | leaf i =>
    simp only [eval, FP.fin.injEq] at hy
    exact ⟨v i, rfl, hv i, hy ▸ hvw i⟩
  | node l r hl hr =>
    simp only [eval] at hy ⊢
    obtain ⟨⟨p, hp⟩, q, hq⟩ := fin_of_mul hy
    obtain ⟨p', hp', p0, pp⟩ := hl hp
    obtain ⟨q', hq', q0, qq⟩ := hr hq
    rw [hp, hq] at hy
    rw [hp', hq']
    change FP.ofRat binary32 (p * q) = _ at hy
    obtain ⟨rfl, hlt⟩ := ofRat_fin hy
    have h0 := mul_nonneg p0 q0
    have hle : p' * q' ≤ p * q := mul_le_mul pp qq q0 (p0.trans pp)
    have hm := binary32.round_mono (by decide) h0 hle
    have hn := binary32.round_nonneg h0
    refine ⟨binary32.round (p' * q'), if_pos ?_, hn, hm⟩
    rw [b32_emax, abs_of_nonneg hn]
    exact hm.trans_lt ((le_abs_self _).trans_lt hlt)

theorem eval_isFloat (T : ProdTree n) {v : Fin n → ℚ} (hv : ∀ i, IsFloat (v i)) {q : ℚ}
    (h : (T.eval fun i => .fin (v i)) = .fin q) : IsFloat q := by
  cases T with
  | leaf i =>
    simp only [eval, FP.fin.injEq] at h
    exact h ▸ hv i
  | node l r => exact mul_isFloat h

end ProdTree

/-! ### Sums with one term -/

open Classical in
theorem SumsTo.single {l : List FP} {x : FP} (h : SumsTo binary32 l x) :
    (l.filter (· ≠ .fin 0) = [] → x = .fin 0) ∧
    ∀ q, IsFloat q → l.filter (· ≠ .fin 0) = [.fin q] → x = .fin q := by
  induction h with
  | one a =>
    refine ⟨fun h => ?_, fun q _ h => ?_⟩
    · by_contra hne
      simp [hne] at h
    · by_cases ha : a = .fin 0
      · simp [ha] at h
      · simpa [ha] using h
  | add h1 h2 ih1 ih2 =>
    rename_i l r a b
    rw [List.filter_append]
    refine ⟨fun h => ?_, fun q hq h => ?_⟩
    · obtain ⟨e1, e2⟩ := List.append_eq_nil_iff.1 h
      rw [ih1.1 e1, ih2.1 e2]
      exact add_zero_zero _
    · have hr : FP.ofRat binary32 q = .fin q := by
        refine (if_pos ?_).trans (by rw [hq.round])
        rw [hq.round, b32_emax]
        obtain ⟨_, _, -, -, hb⟩ := hq
        exact hb
      rcases List.append_eq_singleton_iff.1 h with ⟨e1, e2⟩ | ⟨e1, e2⟩
      · rw [ih1.1 e1, ih2.2 q hq e2]
        show FP.ofRat binary32 (0 + q) = _
        rw [zero_add, hr]
      · rw [ih1.2 q hq e1, ih2.1 e2]
        show FP.ofRat binary32 (q + 0) = _
        rw [add_zero, hr]
  | perm hp h ih =>
    refine ⟨fun h => ih.1 ?_, fun q hq h => ih.2 q hq ?_⟩
    · exact List.perm_nil.1 ((hp.filter _).trans (by rw [h]))
    · exact List.perm_singleton.1 ((hp.filter _).trans (by rw [h]))

/-- a sum of one number and zeros -/
theorem SumsTo.diag {f : Fin n → FP} {i : Fin n} {q : ℚ} (hq : IsFloat q) (hi : f i = .fin q)
    (hz : ∀ j, j ≠ i → f j = .fin 0) {x : FP} (h : SumsTo binary32 (List.ofFn f) x) : x = .fin q := by
  classical
  by_cases h0 : q = 0
  · subst h0
    refine h.zero fun a ha => ?_
    obtain ⟨j, rfl⟩ := List.mem_ofFn.1 ha
    by_cases hj : j = i
    · rw [hj, hi]
    · exact hz j hj
  · refine h.single.2 q hq ?_
    rw [List.ofFn_eq_map, List.filter_map]
    have : (List.finRange n).filter ((fun a => decide (a ≠ FP.fin 0)) ∘ f) = [i] := by
      have e : (List.finRange n).filter ((fun a => decide (a ≠ FP.fin 0)) ∘ f) =
          (List.finRange n).filter (· = i) := by
        refine List.filter_congr fun j _ => ?_
        by_cases hj : j = i
        · subst hj
          simp [hi, h0]
        · simp [hz j hj, hj]
      rw [e]
      have hp : (List.finRange n).filter (· = i) ~ [i] :=
        (List.perm_ext_iff_of_nodup ((List.nodup_finRange n).filter _) (List.nodup_singleton i)).2
          fun j => by simp
      exact List.perm_singleton.1 hp
    simp only [ne_eq] at this ⊢
    rw [this]
    simp [hi]

end Mot
