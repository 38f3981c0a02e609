import Verif.Proofs.CostRange
import Verif.Props.Matching
/-!
# When association is defined, for all scores (C23)
-/

namespace Mot.Props

open Mot Spec

private theorem cell_key {scores : ScoreMap} {k : UuidPair} {s : FP}
    (hk : scores.find? k = some s) : ∃ i j, cell scores i j = s := by
  have hsc : Scored scores (ofLex k).1 (ofLex k).2 := Option.isSome_iff_exists.2 ⟨s, hk⟩
  obtain ⟨i, hi⟩ := mem_iff_nth.1 (mem_trackSet.2 ⟨_, hsc⟩)
  obtain ⟨j, hj⟩ := mem_iff_nth.1 (mem_detSet.2 ⟨_, hsc⟩)
  refine ⟨i, j, cell_of_scored (p := (i, j)) ?_⟩
  have : mkPair (name scores (i, j)).1 (name scores (i, j)).2 = k := by
    simp only [name, hi, hj]; rfl
  rw [this]; exact hk

private theorem cell_value {scores : ScoreMap}
    (hfin : ∀ k s, scores.find? k = some s → ∃ q, s = .fin q)
    (i : Fin (trackSet scores).size) (j : Fin (detSet scores).size) :
    ∃ q, cell scores i j = .fin q ∧ q ∈ matrixValues scores ∧
      ((∃ k, scores.find? k = some (.fin q)) ∨ q = fltMaxQ) := by
  cases h : scores.find? (mkPair (name scores (i, j)).1 (name scores (i, j)).2) with
  | none =>
    refine ⟨fltMaxQ, cell_of_missing (p := (i, j)) h, .inr ⟨fun hc => ?_, rfl⟩, .inr rfl⟩
    have := hc _ _ (scoredTrack_nth i) (scoredDetection_nth j)
    unfold Scored at this
    simp only [name] at h
    rw [h] at this
    simp at this
  | some s =>
    obtain ⟨q, rfl⟩ := hfin _ _ h
    exact ⟨q, cell_of_scored (p := (i, j)) h, .inl ⟨_, h⟩, .inl ⟨_, h⟩⟩

private theorem value_cell {scores : ScoreMap} {q : ℚ} (h : q ∈ matrixValues scores) :
    ∃ i j, cell scores i j = .fin q := by
  rcases h with ⟨k, hk⟩ | ⟨hc, rfl⟩
  · exact cell_key hk
  · unfold Complete at hc
    push Not at hc
    obtain ⟨t, d, ht, hd, hnot⟩ := hc
    obtain ⟨i, hi⟩ := mem_iff_nth.1 (mem_trackSet.2 ht)
    obtain ⟨j, hj⟩ := mem_iff_nth.1 (mem_detSet.2 hd)
    exact ⟨i, j, cell_of_missing (p := (i, j)) (by
      simp only [name, hi, hj]
      unfold Scored at hnot
      simpa using hnot)⟩

/-- C23, exact characterisation for all score maps, negative scores included: the associator
has undefined behaviour iff the map is empty, or some score is not finite, or the largest
number m of the score matrix is 0, or some score s has a normalised score s/m below
-21469421/2²⁰ ≈ -20.47 or from 23566575/2²⁰ ≈ 22.47 on. -/
theorem C23_ub_iff_all {solve : Solver} (hs : IsPermSolver solve) (scores : ScoreMap)
    (hbig : scores.entries.length < 2 ^ 64)
    (hr : ∀ k q, scores.find? k = some (.fin q) → q ≤ fltMaxQ) :
    (gnnAssociator solve scores).IsUb ↔ scores.entries = [] ∨
      (∃ k s, scores.find? k = some s ∧ ∀ q, s ≠ .fin q) ∨
      ∃ m, IsGreatest (matrixValues scores) m ∧
        (m = 0 ∨ ∃ k s, scores.find? k = some (.fin s) ∧
          (s / m < -21469421 / 2 ^ 20 ∨ 23566575 / 2 ^ 20 ≤ s / m)) := by
  by_cases hne : scores.entries = []
  · have : scores = SMap.empty := by cases scores; cases hne; rfl
    subst this
    rw [C23_empty_is_ub]; simp [hne]
  by_cases hfin : ∀ k s, scores.find? k = some s → ∃ q, s = .fin q
  swap
  · push Not at hfin
    obtain ⟨k, s, hk, hsn⟩ := hfin
    exact ⟨fun _ => .inr (.inl ⟨k, s, hk, hsn⟩), fun _ => C23_nonfinite_is_ub solve scores hk hsn⟩
  -- a non-empty map of finite scores
  obtain ⟨⟨k₀, s₀⟩, l, hl⟩ := List.exists_cons_of_ne_nil hne
  have hk₀ : scores.find? k₀ = some s₀ := SMap.find?_eq_some.2 (by rw [hl]; simp)
  obtain ⟨i₀, j₀, -⟩ := cell_key hk₀
  obtain ⟨m, h1, h2, i₁, j₁, h3⟩ := dlibMax_fin
    (m := ⟨(trackSet scores).size, (detSet scores).size, cell scores⟩) (i₀ := i₀) (j₀ := j₀)
    (fun i j => by obtain ⟨q, hq, _⟩ := cell_value hfin i j; exact ⟨q, hq⟩)
  have hgr : IsGreatest (matrixValues scores) m := by
    constructor
    · obtain ⟨q, hq, hm, -⟩ := cell_value hfin i₁ j₁
      simp only at h3
      rw [hq] at h3; cases h3; exact hm
    · intro q hq
      obtain ⟨i, j, hij⟩ := value_cell hq
      exact h2 i j q hij
  have key : (costMatrix ⟨(trackSet scores).size, (detSet scores).size, cell scores⟩).IsUb ↔
      ∃ i j, (costOf (.fin m) (cell scores i j)).IsUb := by
    constructor
    · intro hu
      by_contra hc
      push Not at hc
      have hok : ∀ i j, ∃ c, costOf (.fin m) (cell scores i j) = .ok c := by
        intro i j
        cases hcc : costOf (.fin m) (cell scores i j) with
        | ok c => exact ⟨c, rfl⟩
        | throw e => exact absurd hcc (costOf_ne_throw _ _ _)
        | ub w => exact absurd (by rw [hcc]; simp) (hc i j)
      choose c hcc using hok
      unfold costMatrix at hu
      rw [h1] at hu
      simp only at hu
      rw [DMat.sequence_ok (f := c) hcc] at hu
      simp at hu
    · exact fun h => costMatrix_of_ub h1 h
  have hub : (gnnAssociator solve scores).IsUb ↔
      ∃ i j, (costOf (.fin m) (cell scores i j)).IsUb := by
    rw [← key]
    constructor
    · intro h
      rcases gnn_cases hs hbig with ⟨h', -⟩ | ⟨a, -, -, -, ha, -⟩
      · exact h'
      · rw [ha] at h; simp at h
    · exact gnn_ub_of_cost
  rw [hub]
  constructor
  · rintro ⟨i, j, hij⟩
    refine .inr (.inr ⟨m, hgr, ?_⟩)
    by_cases hm : m = 0
    · exact .inl hm
    right
    obtain ⟨q, hq, hv, hk | rfl⟩ := cell_value hfin i j
    · obtain ⟨k, hk⟩ := hk
      rw [hq, costOf_costY hm, costY_ub_iff] at hij
      exact ⟨k, q, hk, hij⟩
    · -- the largest float is the largest number
      have hmf : m = fltMaxQ := by
        refine le_antisymm ?_ (hgr.2 hv)
        rcases hgr.1 with ⟨k, hk⟩ | ⟨-, h⟩
        · exact hr k m hk
        · exact h.le
      rw [hq, costOf_costY hm, costY_ub_iff, ← hmf, div_self hm] at hij
      norm_num at hij
  · rintro (h | ⟨k, s, hk, hsn⟩ | ⟨m', hm', h⟩)
    · exact absurd h hne
    · obtain ⟨q, hq⟩ := hfin k s hk
      exact absurd hq (hsn q)
    · have : m' = m := hm'.unique hgr
      subst this
      rcases h with rfl | ⟨k, s, hk, hks⟩
      · refine ⟨i₁, j₁, ?_⟩
        simp only at h3
        rw [h3]
        exact costOf_zero_zero
      · obtain ⟨i, j, hij⟩ := cell_key hk
        refine ⟨i, j, ?_⟩
        rw [hij]
        by_cases hm : m' = 0
        · subst hm
          by_cases hs0 : s = 0
          · subst hs0; exact costOf_zero_zero
          · simp [costOf, FP.div, hs0, FP.sub, FP.conv, FP.mul, FP.toInt]
        · rw [costOf_costY hm, costY_ub_iff]
          exact hks

/-- only negative scores: the largest is -1, and -23 is 23 times as large -/
example {solve : Solver} (hs : IsPermSolver solve) :
    (gnnAssociator solve (mkScores [(1, 7, -1), (1, 8, -23)])).IsUb := by
  have he : (mkScores [(1, 7, -1), (1, 8, -23)]).entries =
      [(mkPair ⟨[1]⟩ ⟨[7]⟩, .fin (-1)), (mkPair ⟨[1]⟩ ⟨[8]⟩, .fin (-23))] := by decide +kernel
  have hk : ∀ k q, (mkScores [(1, 7, -1), (1, 8, -23)]).find? k = some (.fin q) →
      q = -1 ∨ q = -23 := by
    intro k q h
    rw [SMap.find?_eq_some, he] at h
    simp only [List.mem_cons, List.not_mem_nil, or_false, Prod.mk.injEq, FP.fin.injEq] at h
    rcases h with h | h
    · exact .inl h.2
    · exact .inr h.2
  have h7 : Scored (mkScores [(1, 7, -1), (1, 8, -23)]) ⟨[1]⟩ ⟨[7]⟩ := by
    unfold Scored; decide +kernel
  have h8 : Scored (mkScores [(1, 7, -1), (1, 8, -23)]) ⟨[1]⟩ ⟨[8]⟩ := by
    unfold Scored; decide +kernel
  have hc : Complete (mkScores [(1, 7, -1), (1, 8, -23)]) := by
    have hsc : ∀ t d, Scored (mkScores [(1, 7, -1), (1, 8, -23)]) t d →
        t = ⟨[1]⟩ ∧ (d = ⟨[7]⟩ ∨ d = ⟨[8]⟩) := by
      intro t d h
      obtain ⟨s, h⟩ := Option.isSome_iff_exists.1 h
      rw [SMap.find?_eq_some, he] at h
      simp only [List.mem_cons, List.not_mem_nil, or_false, Prod.mk.injEq] at h
      rcases h with ⟨h, -⟩ | ⟨h, -⟩
      · have := congrArg ofLex h
        cases this
        simp
      · have := congrArg ofLex h
        cases this
        simp
    rintro t d ⟨d', h⟩ ⟨t', h'⟩
    obtain ⟨rfl, -⟩ := hsc _ _ h
    obtain ⟨-, rfl | rfl⟩ := hsc _ _ h'
    · exact h7
    · exact h8
  refine (C23_ub_iff_all hs _ (by decide +kernel) ?_).2 (.inr (.inr ⟨-1, ⟨?_, ?_⟩, .inr
    ⟨mkPair ⟨[1]⟩ ⟨[8]⟩, -23, by decide +kernel, .inr (by norm_num)⟩⟩))
  · intro k q h
    have : (0 : ℚ) ≤ fltMaxQ := by unfold fltMaxQ; norm_num
    rcases hk k q h with rfl | rfl <;> linarith
  · exact .inl ⟨mkPair ⟨[1]⟩ ⟨[7]⟩, by decide +kernel⟩
  · rintro q (⟨k, h⟩ | ⟨h, -⟩)
    · rcases hk k q h with rfl | rfl <;> norm_num
    · exact absurd hc h

end Mot.Props
