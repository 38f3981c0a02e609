import Verif.Proofs.Solver
import Verif.Props.Matching
import Mathlib.Data.Fin.VecNotation

/-!
# The assignment solver (C116-C118)
-/

namespace Mot.Props

open Mot Mot.Spec

/-! ## C116: the procedure -/

/-- C116: in exact arithmetic, with a largest value beyond twice the differences inside the rows,
the procedure ends with an assignment of every row to its own column whose total is as large as
any.  The `while` loops end within `n` passes each. -/
theorem C116_exact {n : ℕ} {c : Fin n → Fin n → ℤ} {R top : ℤ}
    (hR : ∀ x y y', c x y - c x y' ≤ R) (ht : 2 * R < top) {fuel : ℕ} (hf : n ≤ fuel) :
    ∃ σ : Equiv.Perm (Fin n),
      kmAssignment (exactInt top) fuel n c = .ok (List.ofFn fun i => ((σ i).1 : ℤ)) ∧
      ∀ τ : Equiv.Perm (Fin n), ∑ i, c i (τ i) ≤ ∑ i, c i (σ i) :=
  kmAssignment_ok (fits_exact hR ht) hf

/-- C116: in `int`, with overflow undefined, the same holds for all matrices with entries from 0 to
2^30 - 1, of any size; the costs of the associator go up to 10^8 only. -/
theorem C116_int {n : ℕ} {c : Fin n → Fin n → ℤ} (hc : ∀ x y, 0 ≤ c x y ∧ c x y < 2 ^ 30)
    {fuel : ℕ} (hf : n ≤ fuel) :
    ∃ σ : Equiv.Perm (Fin n),
      kmAssignment int32 fuel n c = .ok (List.ofFn fun i => ((σ i).1 : ℤ)) ∧
      ∀ τ : Equiv.Perm (Fin n), ∑ i, c i (τ i) ≤ ∑ i, c i (σ i) :=
  kmAssignment_ok (fits_int32 fun x => .inl (hc x)) hf

private theorem range_bound {n : ℕ} (c : Fin n → Fin n → ℤ) :
    ∃ R, ∀ x y y', c x y - c x y' ≤ R := by
  refine ⟨∑ x, ∑ y, ∑ y', |c x y - c x y'|, fun x y y' => ?_⟩
  refine (le_abs_self _).trans ?_
  refine (Finset.single_le_sum (f := fun y' => |c x y - c x y'|) (fun _ _ => abs_nonneg _)
    (Finset.mem_univ y')).trans ?_
  refine (Finset.single_le_sum (f := fun y => ∑ y', |c x y - c x y'|)
    (fun _ _ => Finset.sum_nonneg fun _ _ => abs_nonneg _) (Finset.mem_univ y)).trans ?_
  exact Finset.single_le_sum (f := fun x => ∑ y, ∑ y', |c x y - c x y'|)
    (fun _ _ => Finset.sum_nonneg fun _ _ => Finset.sum_nonneg fun _ _ => abs_nonneg _)
    (Finset.mem_univ x)

/-- a solver with the contract that answers as the procedure does -/
private theorem contract_of {A : IntArith}
    (hA : ∀ (n : ℕ) (c : Fin n → Fin n → ℤ),
      (∀ x, (∀ y, 0 ≤ c x y ∧ c x y < 2 ^ 30) ∨ ∀ y, c x y = -2 ^ 31) →
      Km.Fits A c (2 ^ 30 - 1)) :
    ∃ solve : Solver, IsOptimalSolver solve ∧
    ∀ (n : ℕ) (c : Fin n → Fin n → ℤ),
      (∀ x, (∀ y, 0 ≤ c x y ∧ c x y < 2 ^ 30) ∨ ∀ y, c x y = -2 ^ 31) →
      ∀ fuel, n ≤ fuel → kmAssignment A fuel n c = .ok (solve n c) := by
  classical
  have hall : ∀ (n : ℕ) (c : Fin n → Fin n → ℤ), ∃ σ : Equiv.Perm (Fin n),
      (∀ τ : Equiv.Perm (Fin n), ∑ i, c i (τ i) ≤ ∑ i, c i (σ i)) ∧
      ((∀ x, (∀ y, 0 ≤ c x y ∧ c x y < 2 ^ 30) ∨ ∀ y, c x y = -2 ^ 31) →
        ∀ fuel, n ≤ fuel → kmAssignment A fuel n c = .ok (List.ofFn fun i => ((σ i).1 : ℤ))) := by
    intro n c
    by_cases hc : ∀ x, (∀ y, 0 ≤ c x y ∧ c x y < 2 ^ 30) ∨ ∀ y, c x y = -2 ^ 31
    · obtain ⟨σ, h1, h2⟩ := kmAssignment_ok (hA n c hc) (le_refl n)
      exact ⟨σ, h2, fun _ fuel hf => kmAssignment_mono hf h1⟩
    · obtain ⟨R, hR⟩ := range_bound c
      obtain ⟨σ, -, h2⟩ := C116_exact hR (lt_add_one (2 * R)) (le_refl n)
      exact ⟨σ, h2, fun h => absurd h hc⟩
  choose σ h1 h2 using hall
  exact ⟨fun n c => List.ofFn fun i => ((σ n c i).1 : ℤ), fun n c => ⟨σ n c, rfl, h1 n c⟩, h2⟩

/-- C116: the contract that the theorems about the associator assume is the one the procedure
meets: there is a solver with that contract which answers every matrix on which the procedure in
`int` works (rows constant `INT_MIN`, or with entries from 0 to 2^30 - 1) as the procedure does. -/
theorem C116_contract : ∃ solve : Solver, IsOptimalSolver solve ∧
    ∀ (n : ℕ) (c : Fin n → Fin n → ℤ),
      (∀ x, (∀ y, 0 ≤ c x y ∧ c x y < 2 ^ 30) ∨ ∀ y, c x y = -2 ^ 31) →
      ∀ fuel, n ≤ fuel → kmAssignment int32 fuel n c = .ok (solve n c) :=
  contract_of fun _ _ => fits_int32

/-- The procedure needs `n` passes: the bound `n ≤ fuel` cannot be dropped. -/
example : kmAssignment int32 0 1 (fun _ _ => 5) = .ub .endless := by decide +kernel

/-- two rows that want the same column, and a third; the best total is 10 + 7 + 0 -/
example : kmAssignment int32 3 3 ![![10, 3, 1], ![10, 7, 2], ![9, 1, 0]] = .ok [0, 1, 2] := by
  decide +kernel

/-- a path has to be flipped: the first row has to give up its best column -/
example : kmAssignment int32 2 2 ![![10, 9], ![10, 0]] = .ok [1, 0] := by decide +kernel

/-! ## C117: the associator with this solver -/

/-- three tracks and two detections on a line: detections at 0 and 10, tracks at 1, at 2 and at 100;
the scores are the distances -/
def line32 : ScoreMap :=
  mkScores [(1, 7, 1), (1, 8, 9), (2, 7, 2), (2, 8, 8), (3, 7, 100), (3, 8, 90)]

/-- the pairs of the association, if there is one -/
def pairs? (x : Outcome AssociationMap) : Option (List (Uuid × Uuid)) :=
  match x with
  | .ok a => some (pairsOf a)
  | _ => none

/-- the associator with the procedure, once the costs are known -/
theorem gnnKm_of_cost {A : IntArith} {fuel : ℕ} {scores : ScoreMap}
    {c : Fin (trackSet scores).size → Fin (detSet scores).size → ℤ}
    (hc : costMatrix ⟨(trackSet scores).size, (detSet scores).size, cell scores⟩
      = .ok ⟨(trackSet scores).size, (detSet scores).size, c⟩) :
    gnnAssociatorKm A fuel scores =
      (kmAssignment A fuel _ (padded c intLowest)).bind fun results =>
        if results.length < (trackSet scores).size then .ub .oobRead
        else associationMap (results.take (trackSet scores).size) (trackSet scores) (detSet scores) := by
  unfold gnnAssociatorKm
  rw [scoreMatrix_eq]
  simp only [hc]
  unfold Outcome.bind
  simp only [readAll_makeSquare]
  simp only [dite_true, Fin.cast_eq_self]

private theorem fits_of {A : IntArith}
    (hA : ∀ (n : ℕ) (c : Fin n → Fin n → ℤ),
      (∀ x, (∀ y, 0 ≤ c x y ∧ c x y < 2 ^ 30) ∨ ∀ y, c x y = -2 ^ 31) →
      Km.Fits A c (2 ^ 30 - 1)) : ∃ solve : Solver, IsOptimalSolver solve ∧
    ∀ {scores : ScoreMap}, ScoresIn scores fltMaxQ →
    ((∃ k q, scores.find? k = some (.fin q) ∧ 0 < q) ∨ (scores.entries ≠ [] ∧ ¬ Complete scores)) →
    scores.entries.length < 2 ^ 64 → trackCount scores ≤ detectionCount scores →
    ∀ fuel, detectionCount scores ≤ fuel →
      gnnAssociatorKm A fuel scores = gnnAssociator solve scores ∧
      (gnnAssociatorKm A fuel scores).IsOk := by
  obtain ⟨solve, hs, hsolve⟩ := contract_of hA
  refine ⟨solve, hs, ?_⟩
  intro scores hr hpos hbig hTD fuel hf
  obtain ⟨c, hc, hcr⟩ := gnn_asks hr hpos hbig
  have hTD' := hTD
  rw [← trackSet_size, ← detSet_size] at hTD'
  have h := hsolve _ (padded c intLowest) ?_ fuel ?_
  · have key : gnnAssociatorKm A fuel scores = gnnAssociator solve scores := by
      rw [gnnKm_of_cost hc, h]
      unfold gnnAssociator
      rw [scoreMatrix_eq]
      simp only [hc]
      unfold Outcome.bind
      simp only [readAll_makeSquare]
      simp only [maxCostAssignment, dite_true, Fin.cast_eq_self]
    refine ⟨key, ?_⟩
    obtain ⟨a, ha⟩ := C23_returns_partial (fun n c => by
      obtain ⟨σ, h1, -⟩ := hs n c; exact ⟨σ, h1⟩) scores hbig hr hpos
    rw [key, ha]; trivial
  · intro x
    by_cases hx : x.1 < (trackSet scores).size
    · left
      intro y
      have hy := y.2
      simp only [padded]
      rw [dif_pos ⟨hx, by omega⟩]
      have := hcr ⟨x.1, hx⟩ ⟨y.1, by omega⟩
      omega
    · right
      intro y
      simp only [padded]
      rw [dif_neg (by omega)]
      rfl
  · rw [max_eq_right hTD', detSet_size]; exact hf

/-- C117: with no more tracks than detections, the associator whose solver computes in `int` runs
without overflow and does what the associator does with an optimal solver: one and the same for all
score maps.  All theorems about optimal solvers apply. -/
theorem C117_fits_partial : ∃ solve : Solver, IsOptimalSolver solve ∧
    ∀ {scores : ScoreMap}, ScoresIn scores fltMaxQ →
    ((∃ k q, scores.find? k = some (.fin q) ∧ 0 < q) ∨ (scores.entries ≠ [] ∧ ¬ Complete scores)) →
    scores.entries.length < 2 ^ 64 → trackCount scores ≤ detectionCount scores →
    ∀ fuel, detectionCount scores ≤ fuel →
      gnnAssociatorKm int32 fuel scores = gnnAssociator solve scores ∧
      (gnnAssociatorKm int32 fuel scores).IsOk :=
  fits_of fun _ _ => fits_int32

/-- two tracks, three detections -/
example : ScoresIn full23 fltMaxQ ∧ full23.entries.length < 2 ^ 64 ∧
    trackCount full23 ≤ detectionCount full23 ∧
    pairs? (gnnAssociatorKm int32 3 full23) = some [(⟨[1]⟩, ⟨[7]⟩), (⟨[2]⟩, ⟨[8]⟩)] :=
  ⟨scoresIn_of_all (by decide +kernel), by decide +kernel, by decide +kernel, by decide +kernel⟩

/-- C117 fails with more tracks than detections: the padding `INT_MIN` makes the solver's first
subtraction `lx[0] + ly[y] - cost(0,y)` for a padded column overflow, for every such score map. -/
theorem C117_overflow {scores : ScoreMap} (hr : ScoresIn scores fltMaxQ)
    (hpos : (∃ k q, scores.find? k = some (.fin q) ∧ 0 < q) ∨
      (scores.entries ≠ [] ∧ ¬ Complete scores)) (hbig : scores.entries.length < 2 ^ 64)
    (hTD : detectionCount scores < trackCount scores) (fuel : ℕ) :
    gnnAssociatorKm int32 fuel scores = .ub .intOverflow := by
  obtain ⟨c, hc, hcr⟩ := gnn_asks hr hpos hbig
  have hD : 0 < (detSet scores).size := by
    have hne : scores.entries ≠ [] := by
      rcases hpos with ⟨k, q, hk, _⟩ | ⟨h, _⟩
      · intro h
        have := SMap.find?_eq_some.1 hk
        rw [h] at this; simp at this
      · exact h
    obtain ⟨e, he⟩ := List.exists_mem_of_ne_nil _ hne
    rw [detSet_size]
    unfold detectionCount
    rw [Finset.card_pos]
    exact ⟨(ofLex e.1).2, by simp only [List.mem_toFinset, List.mem_map]; exact ⟨e, he, rfl⟩⟩
  rw [← trackSet_size, ← detSet_size] at hTD
  have hT : 0 < (trackSet scores).size := by omega
  have hn : 0 < max (trackSet scores).size (detSet scores).size := by omega
  rw [gnnKm_of_cost hc, kmAssignment_overflow hn (y₁ := ⟨0, hn⟩)
    (y₂ := ⟨(detSet scores).size, by omega⟩) ?_ ?_ ?_]
  · rfl
  · intro y
    simp only [padded]
    by_cases hy : y.1 < (detSet scores).size
    · right
      rw [dif_pos ⟨hT, hy⟩]
      have := hcr ⟨0, hT⟩ ⟨y.1, hy⟩
      omega
    · left
      rw [dif_neg (by omega)]
      rfl
  · simp only [padded]
    rw [dif_pos ⟨hT, hD⟩]
    exact (hcr ⟨0, hT⟩ ⟨0, hD⟩).1
  · simp only [padded]
    rw [dif_neg (by omega)]
    rfl

/-- C117 decided: for finite nonnegative scores (one of them positive, or a pair missing) the
associator whose solver computes in `int` returns exactly if there are no more tracks than
detections. -/
theorem C117_iff {scores : ScoreMap} (hr : ScoresIn scores fltMaxQ)
    (hpos : (∃ k q, scores.find? k = some (.fin q) ∧ 0 < q) ∨
      (scores.entries ≠ [] ∧ ¬ Complete scores)) (hbig : scores.entries.length < 2 ^ 64)
    {fuel : ℕ} (hf : detectionCount scores ≤ fuel) :
    (gnnAssociatorKm int32 fuel scores).IsOk ↔ trackCount scores ≤ detectionCount scores := by
  constructor
  · intro h
    by_contra hcon
    rw [C117_overflow hr hpos hbig (not_le.1 hcon)] at h
    exact h
  · intro h
    obtain ⟨solve, -, hsolve⟩ := C117_fits_partial
    exact (hsolve hr hpos hbig h fuel hf).2

/-- three tracks, two detections: the hypotheses of `C117_overflow` hold -/
example : gnnAssociatorKm int32 3 line32 = .ub .intOverflow :=
  C117_overflow (scoresIn_of_all (by decide +kernel))
    (.inl ⟨mkPair ⟨[1]⟩ ⟨[7]⟩, 1, by decide +kernel, by norm_num⟩) (by decide +kernel)
    (by decide +kernel) 3

/-! ## C118: with wraparound -/

/-- C118 is false: where overflow wraps around, the associator returns on `line32` — but not an
association with the smallest total distance.  It pairs the track at 100 with the detection at 10
(total distance 91) and leaves the track at 2 alone; in exact arithmetic the same procedure pairs
the tracks at 1 and 2 (total distance 9). -/
theorem C118_wraparound_not_optimal :
    pairs? (gnnAssociatorKm wrap32 3 line32) = some [(⟨[1]⟩, ⟨[7]⟩), (⟨[3]⟩, ⟨[8]⟩)] ∧
    pairs? (gnnAssociatorKm (exactInt (2 ^ 40)) 3 line32) =
      some [(⟨[1]⟩, ⟨[7]⟩), (⟨[2]⟩, ⟨[8]⟩)] := by
  constructor <;> decide +kernel

/-- C118, what holds: with no more tracks than detections wraparound does not matter; the associator
does what it does with an optimal solver.

Missing: more tracks than detections, where the claim is false (`C118_wraparound_not_optimal`). -/
theorem C118_wraparound_partial : ∃ solve : Solver, IsOptimalSolver solve ∧
    ∀ {scores : ScoreMap}, ScoresIn scores fltMaxQ →
    ((∃ k q, scores.find? k = some (.fin q) ∧ 0 < q) ∨ (scores.entries ≠ [] ∧ ¬ Complete scores)) →
    scores.entries.length < 2 ^ 64 → trackCount scores ≤ detectionCount scores →
    ∀ fuel, detectionCount scores ≤ fuel →
      gnnAssociatorKm wrap32 fuel scores = gnnAssociator solve scores ∧
      (gnnAssociatorKm wrap32 fuel scores).IsOk :=
  fits_of fun _ _ => fits_wrap32

end Mot.Props
