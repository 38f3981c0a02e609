import Mathlib.Data.Fintype.Sum
import Mathlib.Data.Fintype.Perm
import Mathlib.Data.Fintype.Prod
import Mathlib.Algebra.BigOperators.Group.Finset.Basic
import Mathlib.Algebra.Order.BigOperators.Group.Finset
import Mathlib.Data.Finset.Max
import Mathlib.Tactic.Ring
import Mathlib.Tactic.Linarith
/-! # Assignments and matchings

The padded square assignment problem maximises over all matchings of the original
rectangular problem when the costs are non-negative. -/

namespace Mot
open Finset

variable {T D : ℕ}

/-- no row and no column is used twice -/
def IsMatching (M : Finset (Fin T × Fin D)) : Prop :=
  ∀ p ∈ M, ∀ q ∈ M, (p.1 = q.1 ∨ p.2 = q.2) → p = q

/-- row index of the square matrix -/
def rowUp (i : Fin T) : Fin (max T D) := ⟨i.1, lt_of_lt_of_le i.2 (le_max_left _ _)⟩
/-- column index of the square matrix -/
def colUp (j : Fin D) : Fin (max T D) := ⟨j.1, lt_of_lt_of_le j.2 (le_max_right _ _)⟩

theorem rowUp_inj : Function.Injective (rowUp (T := T) (D := D)) := by
  intro i j h; exact Fin.ext (Fin.mk.inj h)
theorem colUp_inj : Function.Injective (colUp (T := T) (D := D)) := by
  intro i j h; exact Fin.ext (Fin.mk.inj h)

/-- the part of a permutation that lies in the original matrix -/
def matchOf (σ : Equiv.Perm (Fin (max T D))) : Finset (Fin T × Fin D) :=
  univ.filter fun p => σ (rowUp p.1) = colUp p.2

theorem mem_matchOf {σ : Equiv.Perm (Fin (max T D))} {p : Fin T × Fin D} :
    p ∈ matchOf σ ↔ σ (rowUp p.1) = colUp p.2 := by simp [matchOf]

theorem isMatching_matchOf (σ : Equiv.Perm (Fin (max T D))) : IsMatching (matchOf σ) := by
  intro p hp q hq h
  rw [mem_matchOf] at hp hq
  rcases h with h | h
  · refine Prod.ext h (colUp_inj (T := T) ?_)
    rw [← hp, ← hq, h]
  · refine Prod.ext (rowUp_inj (D := D) (σ.injective ?_)) h
    rw [hp, hq, h]

theorem card_matchOf (σ : Equiv.Perm (Fin (max T D))) : (matchOf σ).card = min T D := by
  rcases le_total T D with h | h
  · rw [min_eq_left h]
    have hlt : ∀ k : Fin (max T D), k.1 < D := fun k => by have := k.2; omega
    have : matchOf σ = univ.image fun i : Fin T => (i, (⟨(σ (rowUp i)).1, hlt _⟩ : Fin D)) := by
      ext ⟨i, j⟩
      rw [mem_matchOf]
      simp only [mem_image, mem_univ, true_and, Prod.mk.injEq]
      constructor
      · intro he
        exact ⟨i, rfl, Fin.ext (by rw [he]; rfl)⟩
      · rintro ⟨i', rfl, rfl⟩
        exact Fin.ext rfl
    rw [this, card_image_of_injective _ (fun a b h => (Prod.mk.inj h).1), card_univ, Fintype.card_fin]
  · rw [min_eq_right h]
    have hlt : ∀ k : Fin (max T D), k.1 < T := fun k => by have := k.2; omega
    have : matchOf σ = univ.image fun j : Fin D => ((⟨(σ.symm (colUp j)).1, hlt _⟩ : Fin T), j) := by
      ext ⟨i, j⟩
      rw [mem_matchOf]
      simp only [mem_image, mem_univ, true_and, Prod.mk.injEq]
      constructor
      · intro he
        refine ⟨j, Fin.ext ?_, rfl⟩
        show (σ.symm (colUp j)).1 = i.1
        rw [← he, Equiv.symm_apply_apply]; rfl
      · rintro ⟨j', h1, rfl⟩
        have : rowUp i = σ.symm (colUp j') := by rw [← h1]; exact Fin.ext rfl
        rw [this, Equiv.apply_symm_apply]
    rw [this, card_image_of_injective _ (fun a b h => (Prod.mk.inj h).2), card_univ, Fintype.card_fin]

/-- the padded square matrix -/
def padded (c : Fin T → Fin D → ℤ) (pad : ℤ) (i j : Fin (max T D)) : ℤ :=
  if h : i.1 < T ∧ j.1 < D then c ⟨i.1, h.1⟩ ⟨j.1, h.2⟩ else pad

theorem sum_padded (c : Fin T → Fin D → ℤ) (pad : ℤ) (σ : Equiv.Perm (Fin (max T D))) :
    ∑ i, padded c pad i (σ i)
      = ∑ p ∈ matchOf σ, c p.1 p.2 + ((max T D : ℕ) - (min T D : ℕ) : ℤ) * pad := by
  rw [← sum_filter_add_sum_filter_not univ (fun i => i.1 < T ∧ (σ i).1 < D)]
  have e1 : ∑ p ∈ matchOf σ, c p.1 p.2
      = ∑ i ∈ univ.filter (fun i => i.1 < T ∧ (σ i).1 < D), padded c pad i (σ i) := by
    refine sum_bij (fun p _ => rowUp p.1) ?_ ?_ ?_ ?_
    · intro p hp
      rw [mem_matchOf] at hp
      simp only [mem_filter, mem_univ, true_and]
      refine ⟨p.1.2, ?_⟩
      rw [hp]; exact p.2.2
    · intro p hp q hq h
      exact isMatching_matchOf σ p hp q hq (.inl (rowUp_inj h))
    · intro i hi
      simp only [mem_filter, mem_univ, true_and] at hi
      exact ⟨(⟨i.1, hi.1⟩, ⟨(σ i).1, hi.2⟩), mem_matchOf.2 rfl, rfl⟩
    · intro p hp
      rw [mem_matchOf] at hp
      unfold padded
      rw [dif_pos ⟨p.1.2, by rw [hp]; exact p.2.2⟩]
      congr 1
      exact Fin.ext (by show p.2.1 = (σ (rowUp p.1)).1; rw [hp]; rfl)
  have e2 : (univ.filter (fun i => i.1 < T ∧ (σ i).1 < D)).card = min T D := by
    rw [← card_matchOf σ]
    symm
    refine card_bij (fun p _ => rowUp p.1) ?_ ?_ ?_
    · intro p hp
      rw [mem_matchOf] at hp
      simp only [mem_filter, mem_univ, true_and]
      exact ⟨p.1.2, by rw [hp]; exact p.2.2⟩
    · intro p hp q hq h
      exact isMatching_matchOf σ p hp q hq (.inl (rowUp_inj h))
    · intro i hi
      simp only [mem_filter, mem_univ, true_and] at hi
      exact ⟨(⟨i.1, hi.1⟩, ⟨(σ i).1, hi.2⟩), mem_matchOf.2 rfl, rfl⟩
  rw [e1]
  congr 1
  have e3 : ∀ i ∈ univ.filter (fun i => ¬ (i.1 < T ∧ (σ i).1 < D)), padded c pad i (σ i) = pad := by
    intro i hi
    simp only [mem_filter, mem_univ, true_and] at hi
    unfold padded
    rw [dif_neg hi]
  rw [sum_congr rfl e3, sum_const, nsmul_eq_mul]
  congr 1
  have e4 := card_filter_add_card_filter_not (s := (univ : Finset (Fin (max T D))))
    (fun i => i.1 < T ∧ (σ i).1 < D)
  rw [e2, card_univ, Fintype.card_fin] at e4
  have : ((min T D : ℕ) : ℤ) + ((univ.filter (fun i => ¬ (i.1 < T ∧ (σ i).1 < D))).card : ℤ)
      = (max T D : ℕ) := by exact_mod_cast e4
  linarith

/-- every matching is part of a permutation -/
theorem exists_extend (M : Finset (Fin T × Fin D)) (hM : IsMatching M) :
    ∃ τ : Equiv.Perm (Fin (max T D)), M ⊆ matchOf τ := by
  classical
  let f : Fin (max T D) → Fin (max T D) := fun i =>
    if h : ∃ p ∈ M, rowUp p.1 = i then colUp (Classical.choose h).2 else i
  have hf : ∀ p ∈ M, f (rowUp p.1) = colUp p.2 := by
    intro p hp
    have h : ∃ q ∈ M, rowUp q.1 = rowUp (D := D) p.1 := ⟨p, hp, rfl⟩
    have hs := Classical.choose_spec h
    show (if h : ∃ q ∈ M, rowUp q.1 = rowUp (D := D) p.1 then colUp (Classical.choose h).2
      else rowUp p.1) = _
    rw [dif_pos h, hM _ hs.1 p hp (.inl (rowUp_inj hs.2))]
  obtain ⟨g, hg⟩ := Finset.exists_equiv_extend_of_card_eq (α := Fin (max T D))
    (β := Fin (max T D)) (t := univ) (by simp) (s := M.image fun p => rowUp p.1) (f := f)
    (by simp) (by
      intro a ha b hb hab
      obtain ⟨p, hp, rfl⟩ := mem_image.1 (mem_coe.1 ha)
      obtain ⟨q, hq, rfl⟩ := mem_image.1 (mem_coe.1 hb)
      rw [hf p hp, hf q hq] at hab
      rw [hM p hp q hq (.inr (colUp_inj hab))])
  refine ⟨g.trans (Equiv.subtypeUnivEquiv (by simp)), ?_⟩
  intro p hp
  rw [mem_matchOf]
  show ((g (rowUp p.1)) : Fin (max T D)) = _
  rw [hg _ (mem_image.2 ⟨p, hp, rfl⟩), hf p hp]

/-- An optimal permutation of the padded matrix has maximal total among all matchings
of the original matrix. -/
theorem optimal_matching {c : Fin T → Fin D → ℤ} {pad : ℤ} {σ : Equiv.Perm (Fin (max T D))}
    (hc : ∀ i j, 0 ≤ c i j)
    (hσ : ∀ τ : Equiv.Perm (Fin (max T D)),
      ∑ i, padded c pad i (τ i) ≤ ∑ i, padded c pad i (σ i))
    (M : Finset (Fin T × Fin D)) (hM : IsMatching M) :
    ∑ p ∈ M, c p.1 p.2 ≤ ∑ p ∈ matchOf σ, c p.1 p.2 := by
  obtain ⟨τ, hτ⟩ := exists_extend M hM
  have h1 : ∑ p ∈ M, c p.1 p.2 ≤ ∑ p ∈ matchOf τ, c p.1 p.2 :=
    sum_le_sum_of_subset_of_nonneg hτ (fun p _ _ => hc _ _)
  have h2 := hσ τ
  rw [sum_padded, sum_padded] at h2
  linarith

end Mot
