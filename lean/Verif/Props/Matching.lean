import Verif.Proofs.Matching
import Mathlib.Algebra.Order.BigOperators.Group.List
/-!
# Properties C19–C28: track matching

`gnnAssociator` is analysed for an arbitrary assignment solver: a permutation-returning
one (`IsPermSolver`) or an optimal one (`IsOptimalSolver`, the documented contract of
`dlib::max_cost_assignment`).  Floating-point arithmetic is exact IEEE-754.
The bound `scores.entries.length < 2 ^ 64` always holds on a 64-bit machine.
-/

namespace Mot.Props
open Spec

instance (scores : ScoreMap) (t d : Uuid) : Decidable (Scored scores t d) :=
  inferInstanceAs (Decidable (_ = true))

/-! ## Sample score maps -/

/-- build a score map from a list -/
def mkScores (l : List (Fin 256 × Fin 256 × ℚ)) : ScoreMap :=
  l.foldl (fun m e => m.set (mkPair ⟨[e.1]⟩ ⟨[e.2.1]⟩) (.fin e.2.2)) SMap.empty

/-- complete 2x3 score map -/
def full23 : ScoreMap :=
  mkScores [(1, 7, 1), (1, 8, 2), (1, 9, 3), (2, 7, 5), (2, 8, 1), (2, 9, 4)]

/-- decide `ScoresIn` on the entries -/
theorem scoresIn_of_all {scores : ScoreMap} {b : ℚ}
    (h : ∀ e ∈ scores.entries,
      (match e.2 with | .fin q => decide (0 ≤ q ∧ q ≤ b) | _ => false) = true) :
    ScoresIn scores b := by
  intro k s hs
  have := h _ (SMap.find?_eq_some.1 hs)
  cases s with
  | fin q =>
    have := of_decide_eq_true this
    exact ⟨q, rfl, this.1, this.2⟩
  | nan => simp at this
  | inf _ => simp at this

/-- an optimal solver exists, so the hypotheses on solvers can be met -/
theorem exists_optimalSolver : ∃ solve, IsOptimalSolver solve := by
  have h : ∀ n (c : Fin n → Fin n → ℤ), ∃ σ : Equiv.Perm (Fin n),
      ∀ τ : Equiv.Perm (Fin n), ∑ i, c i (τ i) ≤ ∑ i, c i (σ i) := by
    intro n c
    obtain ⟨σ, _, hσ⟩ := Finset.exists_max_image (Finset.univ : Finset (Equiv.Perm (Fin n)))
      (fun σ => ∑ i, c i (σ i)) ⟨1, Finset.mem_univ _⟩
    exact ⟨σ, fun τ => hσ τ (Finset.mem_univ _)⟩
  choose σ hσ using h
  exact ⟨fun n c => List.ofFn fun i => ((σ n c i).1 : ℤ), fun n c => ⟨σ n c, rfl, hσ n c⟩⟩

/-! ## C23: undefined behaviour (first, because the examples below use it) -/

/-- C23 is false: the empty score map makes the associator take the maximum of an
empty matrix. -/
theorem C23_empty_is_ub (solve : Solver) : gnnAssociator solve SMap.empty = .ub .emptyMax := rfl

/-- C23 is false: any NaN or infinite score gives undefined behaviour. -/
theorem C23_nonfinite_is_ub (solve : Solver) (scores : ScoreMap) {k : UuidPair} {s : FP}
    (hk : scores.find? k = some s) (hs : ∀ q, s ≠ .fin q) :
    (gnnAssociator solve scores).IsUb := by
  apply gnn_ub_of_cost
  have hsc : Scored scores (ofLex k).1 (ofLex k).2 := by
    unfold Scored; exact Option.isSome_iff_exists.2 ⟨s, hk⟩
  obtain ⟨i, hi⟩ := mem_iff_nth.1 (mem_trackSet.2 ⟨_, hsc⟩)
  obtain ⟨j, hj⟩ := mem_iff_nth.1 (mem_detSet.2 ⟨_, hsc⟩)
  have hcell : cell scores i j = s := cell_of_scored (p := (i, j)) (by
    have : mkPair (name scores (i, j)).1 (name scores (i, j)).2 = k := by
      simp only [name, hi, hj]; rfl
    rw [this]; exact hk)
  rcases costMatrix_cases ⟨(trackSet scores).size, (detSet scores).size, cell scores⟩ with
    h | ⟨mx, c, hmx, hc, hcost⟩
  · exact h
  · have := hcost i j
    have hu := costOf_nonfinite (m := mx) hs
    simp only at this
    rw [hcell] at this
    rw [this] at hu
    exact absurd hu (by simp)

/-- C23 is false: if every pair is scored and all scores are 0 (all tracks exactly at
their detections), 0/0 is converted to `int`. -/
theorem C23_all_zero_is_ub (solve : Solver) (scores : ScoreMap) (hc : Complete scores)
    (h0 : ∀ k s, scores.find? k = some s → s = .fin 0) :
    (gnnAssociator solve scores).IsUb := by
  by_cases hne : scores.entries = []
  · have : scores = SMap.empty := by
      cases scores; cases hne; rfl
    rw [this, C23_empty_is_ub]; simp
  apply gnn_ub_of_cost
  rcases costMatrix_cases ⟨(trackSet scores).size, (detSet scores).size, cell scores⟩ with
    h | ⟨mx, c, hmx, hcm, hcost⟩
  · exact h
  · have hr : ScoresIn scores fltMaxQ := by
      intro k s hs
      exact ⟨0, h0 k s hs, le_rfl, by unfold fltMaxQ; norm_num⟩
    obtain ⟨m, _, hpos, ⟨i, j, hij⟩, _⟩ := costs_eq hr hmx hcost
    have hsc := hc _ _ (scoredTrack_nth i) (scoredDetection_nth j)
    obtain ⟨s, hs⟩ := Option.isSome_iff_exists.1 hsc
    have := cell_of_scored (p := (i, j)) hs
    simp only at this
    rw [hij, h0 _ _ hs] at this
    cases this
    exact absurd hpos (lt_irrefl _)

/-- C23, exact characterisation: when finite scores are non-negative floats, the
associator has undefined behaviour iff the map is empty, some score is not finite, or
all pairs are scored with 0; otherwise it returns. -/
theorem C23_ub_iff {solve : Solver} (hs : IsPermSolver solve) (scores : ScoreMap)
    (hbig : scores.entries.length < 2 ^ 64)
    (hr : ∀ k q, scores.find? k = some (.fin q) → 0 ≤ q ∧ q ≤ fltMaxQ) :
    ((gnnAssociator solve scores).IsUb ↔ scores.entries = [] ∨
      (∃ k s, scores.find? k = some s ∧ ∀ q, s ≠ .fin q) ∨
      (Complete scores ∧ ∀ k s, scores.find? k = some s → s = .fin 0)) ∧
    ((gnnAssociator solve scores).IsUb ∨ (gnnAssociator solve scores).IsOk) := by
  constructor
  · constructor
    · intro hub
      by_contra hcon
      push Not at hcon
      obtain ⟨hne, hfin, hz⟩ := hcon
      have hr' : ScoresIn scores fltMaxQ := by
        intro k s hk
        obtain ⟨q, hq⟩ := hfin k s hk
        subst hq
        exact ⟨q, rfl, hr k q hk⟩
      rcases gnn_cases hs hbig with ⟨hcu, _⟩ | ⟨a, mx, c, σ, ha, _⟩
      · -- the cost matrix is defined
        obtain ⟨⟨k, s⟩, l, hl⟩ := List.exists_cons_of_ne_nil hne
        have hk : scores.find? k = some s := SMap.find?_eq_some.2 (by rw [hl]; simp)
        have hsc : Scored scores (ofLex k).1 (ofLex k).2 :=
          Option.isSome_iff_exists.2 ⟨s, hk⟩
        obtain ⟨i₀, _⟩ := mem_iff_nth.1 (mem_trackSet.2 ⟨_, hsc⟩)
        obtain ⟨j₀, _⟩ := mem_iff_nth.1 (mem_detSet.2 ⟨_, hsc⟩)
        obtain ⟨m, h1, h2, h3⟩ := dlibMax_fin
          (m := ⟨(trackSet scores).size, (detSet scores).size, cell scores⟩)
          (i₀ := i₀) (j₀ := j₀)
          (fun i j => by obtain ⟨q, hq, _⟩ := cell_fin hr' i j; exact ⟨q, hq⟩)
        have hpos : 0 < m := by
          by_cases hcomp : Complete scores
          · obtain ⟨k', s', hk', hs'⟩ := hz hcomp
            obtain ⟨q, rfl, hq0, _⟩ := hr' k' s' hk'
            have hq : 0 < q := lt_of_le_of_ne hq0 (fun h => hs' (by rw [← h]))
            have hsc' : Scored scores (ofLex k').1 (ofLex k').2 :=
              Option.isSome_iff_exists.2 ⟨_, hk'⟩
            obtain ⟨i, hi⟩ := mem_iff_nth.1 (mem_trackSet.2 ⟨_, hsc'⟩)
            obtain ⟨j, hj⟩ := mem_iff_nth.1 (mem_detSet.2 ⟨_, hsc'⟩)
            have hcell : cell scores i j = .fin q := cell_of_scored (p := (i, j)) (by
              have : mkPair (name scores (i, j)).1 (name scores (i, j)).2 = k' := by
                simp only [name, hi, hj]; rfl
              rw [this]; exact hk')
            exact hq.trans_le (h2 i j q hcell)
          · unfold Complete at hcomp
            push Not at hcomp
            obtain ⟨t, d, ht, hd, hnot⟩ := hcomp
            obtain ⟨i, hi⟩ := mem_iff_nth.1 (mem_trackSet.2 ht)
            obtain ⟨j, hj⟩ := mem_iff_nth.1 (mem_detSet.2 hd)
            have hcell : cell scores i j = FP.fltMax := cell_of_missing (p := (i, j)) (by
              simp only [name, hi, hj]
              unfold Scored at hnot
              simpa using hnot)
            have := h2 i j _ hcell
            have h0 : (0 : ℚ) < (2 ^ 24 - 1) * 2 ^ 104 := by norm_num
            exact h0.trans_le this
        rcases costMatrix_cases ⟨(trackSet scores).size, (detSet scores).size, cell scores⟩ with
          h | ⟨mx, c, hmx, hcm, hcost⟩
        · unfold costMatrix at h
          rw [h1] at h
          simp only at h
          rw [DMat.sequence_ok (f := fun i j => costQ m (match cell scores i j with
            | .fin q => q | _ => 0))] at h
          · simp at h
          · intro i j
            simp only
            obtain ⟨q, hq, hq0, _⟩ := cell_fin hr' i j
            rw [hq]
            exact costOf_eq hpos hq0 (h2 i j q hq)
        · rw [hcm] at hcu; exact absurd hcu (by simp)
      · rw [ha] at hub; exact absurd hub (by simp)
    · rintro (h | ⟨k, s, hk, hsn⟩ | ⟨h1, h2⟩)
      · have : scores = SMap.empty := by cases scores; cases h; rfl
        rw [this, C23_empty_is_ub]; simp
      · exact C23_nonfinite_is_ub solve scores hk hsn
      · exact C23_all_zero_is_ub solve scores h1 h2
  · rcases gnn_cases hs hbig with ⟨_, h⟩ | ⟨a, mx, c, σ, ha, _⟩
    · exact .inl h
    · right; rw [ha]; simp

/-- C23, usable form: a non-empty map of finite non-negative scores with a positive
score, or with an unscored pair, is associated without undefined behaviour. -/
theorem C23_returns_partial {solve : Solver} (hs : IsPermSolver solve) (scores : ScoreMap)
    (hbig : scores.entries.length < 2 ^ 64) (hr : ScoresIn scores fltMaxQ)
    (hpos : (∃ k q, scores.find? k = some (.fin q) ∧ 0 < q) ∨
      (scores.entries ≠ [] ∧ ¬ Complete scores)) :
    ∃ a, gnnAssociator solve scores = .ok a := by
  obtain ⟨h1, h2⟩ := C23_ub_iff hs scores hbig (fun k q hk => by
    obtain ⟨q', hq, h0, h1⟩ := hr k _ hk
    cases hq; exact ⟨h0, h1⟩)
  rcases h2 with h2 | h2
  · exfalso
    rcases h1.1 h2 with h | ⟨k, s, hk, hn⟩ | ⟨hc, hz⟩
    · rcases hpos with ⟨k, q, hk, _⟩ | ⟨hne, _⟩
      · have := SMap.find?_eq_some.1 hk
        rw [h] at this; simp at this
      · exact hne h
    · obtain ⟨q, hq, _⟩ := hr k s hk
      exact hn q hq
    · rcases hpos with ⟨k, q, hk, hq⟩ | ⟨_, hnc⟩
      · have := hz k _ hk
        cases this
        exact lt_irrefl _ hq
      · exact hnc hc
  · exact Outcome.isOk_iff.1 h2

/-- the hypotheses of `C23_all_zero_is_ub` are met by one track on one detection -/
example : Complete (mkScores [(1, 2, 0)]) ∧
    ∀ k s, (mkScores [(1, 2, 0)]).find? k = some s → s = .fin 0 := by
  have he : (mkScores [(1, 2, 0)]).entries = [(mkPair ⟨[1]⟩ ⟨[2]⟩, .fin 0)] := by decide +kernel
  constructor
  · rintro t d ⟨d', h1⟩ ⟨t', h2⟩
    obtain ⟨s, h1⟩ := scored_iff_mem.1 h1
    obtain ⟨s', h2⟩ := scored_iff_mem.1 h2
    rw [he] at h1 h2
    simp only [List.mem_singleton, Prod.mk.injEq] at h1 h2
    have e1 : t = ⟨[1]⟩ := congrArg (fun k : UuidPair => (ofLex k).1) h1.1
    have e2 : d = ⟨[2]⟩ := congrArg (fun k : UuidPair => (ofLex k).2) h2.1
    subst e1 e2
    decide +kernel
  · intro k s hk
    have := SMap.find?_eq_some.1 hk
    rw [he] at this
    simp only [List.mem_singleton, Prod.mk.injEq] at this
    exact this.2

/-- the sample map satisfies the hypotheses of the positive statement -/
theorem full23_ok {solve : Solver} (hs : IsPermSolver solve) :
    ∃ a, gnnAssociator solve full23 = .ok a := by
  refine C23_returns_partial hs full23 (by decide +kernel) (scoresIn_of_all (by decide +kernel))
    (.inl ⟨mkPair ⟨[1]⟩ ⟨[7]⟩, 1, by decide +kernel, by norm_num⟩)

/-! ## C19, C20 -/

/-- C19: associations are one-to-one and only mention UUIDs of the score map. -/
theorem C19_one_to_one {solve : Solver} (hs : IsPermSolver solve) {scores : ScoreMap}
    (hbig : scores.entries.length < 2 ^ 64) {a : AssociationMap}
    (h : gnnAssociator solve scores = .ok a) :
    (∀ t l, a.find? t = some l → ∃ d, l = [d]) ∧
    (∀ t t' d, a.find? t = some [d] → a.find? t' = some [d] → t = t') ∧
    OneToOne (pairsOf a) ∧
    ∀ x ∈ pairsOf a, ScoredTrack scores x.1 ∧ ScoredDetection scores x.2 := by
  obtain ⟨mx, c, σ, _, _, _, ha⟩ := gnn_ok hs hbig h
  refine ⟨?_, ?_, ⟨?_, ?_⟩, ?_⟩
  · intro t l hl
    exact entries_singleton ha (SMap.find?_eq_some.1 hl)
  · intro t t' d h1 h2
    obtain ⟨p, hp, rfl, hd⟩ := (ha _ _).1 h1
    obtain ⟨q, hq, rfl, hd'⟩ := (ha _ _).1 h2
    have : p.2 = q.2 := nth_inj _ (by
      have := hd.symm.trans hd'
      simpa using this)
    rw [isMatching_matchOf σ p hp q hq (.inr this)]
  · rw [pairsOf_fst ha]; exact a.nodup_keys
  · refine List.Nodup.map_on ?_ (nodup_pairsOf ha)
    intro x hx y hy hxy
    obtain ⟨p, hp, rfl⟩ := (mem_pairsOf ha x).1 hx
    obtain ⟨q, hq, rfl⟩ := (mem_pairsOf ha y).1 hy
    rw [isMatching_matchOf σ p hp q hq (.inr (nth_inj _ hxy))]
  · intro x hx
    obtain ⟨p, hp, rfl⟩ := (mem_pairsOf ha x).1 hx
    exact ⟨scoredTrack_nth _, scoredDetection_nth _⟩

/-- C20: the number of associations is the smaller of the numbers of distinct tracks
and detections. -/
theorem C20_card {solve : Solver} (hs : IsPermSolver solve) {scores : ScoreMap}
    (hbig : scores.entries.length < 2 ^ 64) {a : AssociationMap}
    (h : gnnAssociator solve scores = .ok a) :
    (pairsOf a).length = min (trackCount scores) (detectionCount scores) ∧
      a.keys.length = min (trackCount scores) (detectionCount scores) := by
  obtain ⟨mx, c, σ, _, _, _, ha⟩ := gnn_ok hs hbig h
  have : (pairsOf a).length = min (trackCount scores) (detectionCount scores) := by
    rw [length_names (nodup_pairsOf ha) (mem_pairsOf ha), card_matchOf, trackSet_size, detSet_size]
  refine ⟨this, ?_⟩
  rw [← this, ← pairsOf_fst ha, List.length_map]

/-- C20: with no more tracks than detections every track of the map is associated. -/
theorem C20_all_tracks {solve : Solver} (hs : IsPermSolver solve) {scores : ScoreMap}
    (hbig : scores.entries.length < 2 ^ 64) {a : AssociationMap}
    (h : gnnAssociator solve scores = .ok a)
    (hle : trackCount scores ≤ detectionCount scores) (t : Uuid) :
    ScoredTrack scores t ↔ (a.find? t).isSome := by
  obtain ⟨mx, c, σ, _, _, _, ha⟩ := gnn_ok hs hbig h
  rw [← trackSet_size, ← detSet_size] at hle
  constructor
  · intro ht
    obtain ⟨i, rfl⟩ := mem_iff_nth.1 (mem_trackSet.2 ht)
    have hlt : (σ (rowUp i)).1 < (detSet scores).size := by
      have := (σ (rowUp i)).2; omega
    rw [Option.isSome_iff_exists]
    exact ⟨_, (ha _ _).2 ⟨(i, ⟨_, hlt⟩), mem_matchOf.2 (Fin.ext rfl), rfl, rfl⟩⟩
  · intro hsome
    obtain ⟨l, hl⟩ := Option.isSome_iff_exists.1 hsome
    obtain ⟨p, _, rfl, _⟩ := (ha _ _).1 hl
    exact scoredTrack_nth _

/-- C20: with no more detections than tracks every detection of the map is used. -/
theorem C20_all_detections {solve : Solver} (hs : IsPermSolver solve) {scores : ScoreMap}
    (hbig : scores.entries.length < 2 ^ 64) {a : AssociationMap}
    (h : gnnAssociator solve scores = .ok a)
    (hle : detectionCount scores ≤ trackCount scores) (d : Uuid) :
    ScoredDetection scores d ↔ ∃ t, a.find? t = some [d] := by
  obtain ⟨mx, c, σ, _, _, _, ha⟩ := gnn_ok hs hbig h
  rw [← trackSet_size, ← detSet_size] at hle
  constructor
  · intro ht
    obtain ⟨j, rfl⟩ := mem_iff_nth.1 (mem_detSet.2 ht)
    have hlt : (σ.symm (colUp j)).1 < (trackSet scores).size := by
      have := (σ.symm (colUp j)).2; omega
    refine ⟨_, (ha _ _).2 ⟨(⟨_, hlt⟩, j), mem_matchOf.2 ?_, rfl, rfl⟩⟩
    have : rowUp (D := (detSet scores).size) ⟨(σ.symm (colUp j)).1, hlt⟩ = σ.symm (colUp j) :=
      Fin.ext rfl
    simp only
    rw [this, Equiv.apply_symm_apply]
  · rintro ⟨t, hl⟩
    obtain ⟨p, _, _, hd⟩ := (ha _ _).1 hl
    simp only [List.cons.injEq, and_true] at hd
    rw [hd]
    exact scoredDetection_nth _

example : ∃ solve a, IsPermSolver solve ∧ full23.entries.length < 2 ^ 64 ∧
    gnnAssociator solve full23 = .ok a ∧ trackCount full23 = 2 ∧ detectionCount full23 = 3 := by
  obtain ⟨solve, hs⟩ := exists_optimalSolver
  obtain ⟨a, ha⟩ := full23_ok hs.perm
  exact ⟨solve, a, hs.perm, by decide +kernel, ha, by decide +kernel, by decide +kernel⟩

/-! ## C21 -/

/-- in a successful call on a complete map with largest score `m`, the total of the
costs is maximal -/
theorem cost_total_maximal {solve : Solver} (hs : IsOptimalSolver solve) {scores : ScoreMap}
    (hbig : scores.entries.length < 2 ^ 64) (hc : Complete scores) {m : ℚ}
    (hm : ScoresIn scores m) (hmf : m ≤ fltMaxQ) (hmax : ∃ k, scores.find? k = some (.fin m))
    {a : AssociationMap} (h : gnnAssociator solve scores = .ok a)
    {l : List (Uuid × Uuid)} (hl : OneToOne l) (hscored : ∀ x ∈ l, Scored scores x.1 x.2) :
    0 < m ∧
    (l.map fun x => costQ m (scoreVal scores x)).sum
      ≤ ((pairsOf a).map fun x => costQ m (scoreVal scores x)).sum := by
  obtain ⟨mx, c, σ, hmx, hcost, ha, hopt⟩ := gnn_ok_optimal hs hbig h
  have hr : ScoresIn scores fltMaxQ := by
    intro k s hk
    obtain ⟨q, hq, h0, h1⟩ := hm k s hk
    exact ⟨q, hq, h0, h1.trans hmf⟩
  obtain ⟨m', rfl, hpos, ⟨i, j, hij⟩, hval⟩ := costs_eq hr hmx hcost
  -- all cells are scored
  have hcell : ∀ p, cell scores p.1 p.2 = .fin (scoreVal scores (name scores p)) := by
    intro p
    obtain ⟨s, hs'⟩ := Option.isSome_iff_exists.1
      (hc _ _ (scoredTrack_nth p.1) (scoredDetection_nth p.2))
    have h1 := cell_of_scored (p := p) hs'
    obtain ⟨q, rfl, _, _⟩ := hm _ _ hs'
    rw [h1]
    unfold scoreVal
    simp only [name]
    rw [hs']
  have hmm : m' = m := by
    apply le_antisymm
    · obtain ⟨s, hs'⟩ := Option.isSome_iff_exists.1
        (hc _ _ (scoredTrack_nth i) (scoredDetection_nth j))
      have h1 := cell_of_scored (p := (i, j)) hs'
      simp only at h1
      rw [hij] at h1
      obtain ⟨q, hq, _, h2⟩ := hm _ _ hs'
      rw [← h1] at hq; cases hq; exact h2
    · obtain ⟨k, hk⟩ := hmax
      have hsc : Scored scores (ofLex k).1 (ofLex k).2 := Option.isSome_iff_exists.2 ⟨_, hk⟩
      obtain ⟨i', hi⟩ := mem_iff_nth.1 (mem_trackSet.2 ⟨_, hsc⟩)
      obtain ⟨j', hj⟩ := mem_iff_nth.1 (mem_detSet.2 ⟨_, hsc⟩)
      have h1 : cell scores i' j' = .fin m := cell_of_scored (p := (i', j')) (by
        have : mkPair (name scores (i', j')).1 (name scores (i', j')).2 = k := by
          simp only [name, hi, hj]; rfl
        rw [this]; exact hk)
      exact (hval i' j' m h1).2.1
  subst hmm
  refine ⟨hpos, ?_⟩
  obtain ⟨F, hF, hmem⟩ := cells_of (scores := scores) hl
    (fun x hx => ⟨⟨_, hscored x hx⟩, ⟨_, hscored x hx⟩⟩)
  have hln : l.Nodup := List.Nodup.of_map _ hl.1
  rw [sum_names hln hmem, sum_names (nodup_pairsOf ha) (mem_pairsOf ha)]
  have hcv : ∀ p : Fin (trackSet scores).size × Fin (detSet scores).size,
      c p.1 p.2 = costQ m' (scoreVal scores (name scores p)) := fun p =>
    (hval p.1 p.2 _ (hcell p)).2.2
  have := hopt (fun i j => by
    have h1 := hval i j _ (hcell (i, j))
    rw [h1.2.2]
    exact (costQ_range hpos h1.1 h1.2.1).1) F hF
  simpa only [hcv] using this

/-- sums of errors -/
theorem sum_score_cost {scores : ScoreMap} {m : ℚ} (hpos : 0 < m) (l : List (Uuid × Uuid))
    (hl : ∀ x ∈ l, 0 ≤ scoreVal scores x ∧ scoreVal scores x ≤ m) :
    |totalScore scores l - m * (l.length - ((l.map fun x => costQ m (scoreVal scores x)).sum : ℚ)
      / 100000000)| ≤ 11 * l.length * m / 100000000 := by
  unfold totalScore
  induction l with
  | nil => simp
  | cons x l ih =>
    have h1 := ih (fun y hy => hl y (by simp [hy]))
    have h2 := costQ_err hpos (hl x (by simp)).1 (hl x (by simp)).2
    simp only [List.map_cons, List.sum_cons, List.length_cons]
    push_cast
    set S := (l.map (scoreVal scores)).sum
    set K : ℚ := (((l.map fun x => costQ m (scoreVal scores x)).sum : ℤ) : ℚ)
    set c : ℚ := (costQ m (scoreVal scores x) : ℚ)
    set s := scoreVal scores x
    have h3 : |s - m * (1 - c / 100000000)| ≤ 11 * m / 100000000 := by
      have e : s - m * (1 - c / 100000000) = (c - 100000000 * (1 - s / m)) * (m / 100000000) := by
        field_simp; ring
      rw [e, abs_mul, abs_of_pos (by positivity : 0 < m / 100000000)]
      have := mul_le_mul_of_nonneg_right h2 (by positivity : 0 ≤ m / 100000000)
      linarith
    rw [abs_le] at *
    have e1 : m * ((l.length : ℚ) + 1 - (c + K) / 100000000)
        = m * (1 - c / 100000000) + m * (l.length - K / 100000000) := by ring
    have e2 : 11 * ((l.length : ℚ) + 1) * m / 100000000
        = 11 * m / 100000000 + 11 * l.length * m / 100000000 := by ring
    rw [e1, e2]
    constructor <;> linarith

/-- C21: on a complete score map with largest score `m`, no other one-to-one choice of
the same size has a total score smaller by more than 22 m / 10^8 per pair. -/
theorem C21_near_optimal {solve : Solver} (hs : IsOptimalSolver solve) {scores : ScoreMap}
    (hbig : scores.entries.length < 2 ^ 64) (hc : Complete scores) {m : ℚ}
    (hm : ScoresIn scores m) (hmf : m ≤ fltMaxQ) (hmax : ∃ k, scores.find? k = some (.fin m))
    {a : AssociationMap} (h : gnnAssociator solve scores = .ok a)
    {l : List (Uuid × Uuid)} (hl : OneToOne l) (hscored : ∀ x ∈ l, Scored scores x.1 x.2)
    (hlen : l.length = (pairsOf a).length) :
    totalScore scores (pairsOf a)
      ≤ totalScore scores l + 22 * (pairsOf a).length * m / 100000000 := by
  obtain ⟨hpos, hle⟩ := cost_total_maximal hs hbig hc hm hmf hmax h hl hscored
  have hval : ∀ t d, Scored scores t d → 0 ≤ scoreVal scores (t, d) ∧ scoreVal scores (t, d) ≤ m := by
    intro t d htd
    obtain ⟨s, hs'⟩ := Option.isSome_iff_exists.1 htd
    obtain ⟨q, rfl, h0, h1⟩ := hm _ _ hs'
    unfold scoreVal
    simp only [hs']
    exact ⟨h0, h1⟩
  have h1 := sum_score_cost hpos l (fun x hx => hval x.1 x.2 (hscored x hx))
  have h2 := sum_score_cost (scores := scores) hpos (pairsOf a) (fun x hx => by
    obtain ⟨_, _, _, h4⟩ := C19_one_to_one hs.perm hbig h
    obtain ⟨h5, h6⟩ := h4 x hx
    exact hval x.1 x.2 (hc _ _ h5 h6))
  rw [hlen] at h1
  have hle' : ((l.map fun x => costQ m (scoreVal scores x)).sum : ℚ)
      ≤ (((pairsOf a).map fun x => costQ m (scoreVal scores x)).sum : ℚ) := by exact_mod_cast hle
  set K : ℚ := (((l.map fun x => costQ m (scoreVal scores x)).sum : ℤ) : ℚ)
  set K' : ℚ := ((((pairsOf a).map fun x => costQ m (scoreVal scores x)).sum : ℤ) : ℚ)
  rw [abs_le] at h1 h2
  have : m * (K' / 100000000) ≥ m * (K / 100000000) :=
    mul_le_mul_of_nonneg_left (div_le_div_of_nonneg_right hle' (by norm_num)) hpos.le
  have e1 : m * (((pairsOf a).length : ℚ) - K / 100000000)
    = m * (pairsOf a).length - m * (K / 100000000) := by ring
  have e2 : m * (((pairsOf a).length : ℚ) - K' / 100000000)
    = m * (pairsOf a).length - m * (K' / 100000000) := by ring
  rw [e1] at h1
  rw [e2] at h2
  have e3 : 22 * ((pairsOf a).length : ℚ) * m / 100000000
    = 11 * (pairsOf a).length * m / 100000000 + 11 * (pairsOf a).length * m / 100000000 := by ring
  rw [e3]
  linarith [h1.1, h1.2, h2.1, h2.2]

/-- decidable form of completeness -/
theorem complete_of_all {scores : ScoreMap}
    (h : ∀ e ∈ scores.entries, ∀ f ∈ scores.entries,
      Scored scores (ofLex e.1).1 (ofLex f.1).2) : Complete scores := by
  rintro t d ⟨d', h1⟩ ⟨t', h2⟩
  obtain ⟨s, h1⟩ := scored_iff_mem.1 h1
  obtain ⟨s', h2⟩ := scored_iff_mem.1 h2
  exact h _ h1 _ h2

example : Complete full23 ∧ ScoresIn full23 5 ∧ (5 : ℚ) ≤ fltMaxQ ∧
    full23.find? (mkPair ⟨[2]⟩ ⟨[7]⟩) = some (.fin 5) ∧
    OneToOne [((⟨[1]⟩ : Uuid), (⟨[7]⟩ : Uuid)), (⟨[2]⟩, ⟨[8]⟩)] ∧
    (∀ x ∈ [((⟨[1]⟩ : Uuid), (⟨[7]⟩ : Uuid)), (⟨[2]⟩, ⟨[8]⟩)], Scored full23 x.1 x.2) ∧
    ∀ solve, IsOptimalSolver solve → ∃ a, gnnAssociator solve full23 = .ok a ∧
      (pairsOf a).length = 2 := by
  refine ⟨complete_of_all (by decide +kernel), scoresIn_of_all (by decide +kernel),
    by unfold fltMaxQ; norm_num, by decide +kernel, ?_, by decide +kernel, ?_⟩
  · unfold OneToOne; decide +kernel
  · intro solve hs
    obtain ⟨a, ha⟩ := full23_ok hs.perm
    refine ⟨a, ha, ?_⟩
    rw [(C20_card hs.perm (by decide +kernel) ha).1]
    decide +kernel

/-- 2x2 map on which integer costs mislead the solver; all four scores are `float`s -/
def tight22 : ScoreMap :=
  mkScores [(1, 7, 18901170 / 2 ^ 25), (1, 8, 1), (2, 7, 4076059 / 2 ^ 25), (2, 8, 18729322 / 2 ^ 25)]

/-- the four pairs of `tight22` -/
theorem tight22_scored {x : Uuid × Uuid} (h1 : ScoredTrack tight22 x.1)
    (h2 : ScoredDetection tight22 x.2) :
    x = (⟨[1]⟩, ⟨[7]⟩) ∨ x = (⟨[1]⟩, ⟨[8]⟩) ∨ x = (⟨[2]⟩, ⟨[7]⟩) ∨ x = (⟨[2]⟩, ⟨[8]⟩) := by
  obtain ⟨d, h1⟩ := h1
  obtain ⟨t, h2⟩ := h2
  obtain ⟨s, h1⟩ := scored_iff_mem.1 h1
  obtain ⟨s', h2⟩ := scored_iff_mem.1 h2
  have key : ∀ e ∈ tight22.entries, ∀ f ∈ tight22.entries,
      ((ofLex e.1).1, (ofLex f.1).2) ∈ [((⟨[1]⟩ : Uuid), (⟨[7]⟩ : Uuid)), (⟨[1]⟩, ⟨[8]⟩),
        (⟨[2]⟩, ⟨[7]⟩), (⟨[2]⟩, ⟨[8]⟩)] := by decide +kernel
  have := key _ h1 _ h2
  simpa using this

/-- C21: exact minimality is false.  On `tight22` *every* optimal solver leads to an
association whose total score exceeds that of the other one-to-one choice. -/
theorem C21_not_exactly_optimal {solve : Solver} (hs : IsOptimalSolver solve) :
    Complete tight22 ∧ ScoresIn tight22 1 ∧
    ∃ a l, gnnAssociator solve tight22 = .ok a ∧ OneToOne l ∧
      (∀ x ∈ l, Scored tight22 x.1 x.2) ∧ l.length = (pairsOf a).length ∧
      totalScore tight22 l < totalScore tight22 (pairsOf a) := by
  have hc : Complete tight22 := complete_of_all (by decide +kernel)
  have hr : ScoresIn tight22 1 := scoresIn_of_all (by decide +kernel)
  have hbig : tight22.entries.length < 2 ^ 64 := by decide +kernel
  have hm1 : (1 : ℚ) ≤ fltMaxQ := by unfold fltMaxQ; norm_num
  have hmax : tight22.find? (mkPair ⟨[1]⟩ ⟨[8]⟩) = some (.fin 1) := by decide +kernel
  obtain ⟨a, ha⟩ := C23_returns_partial hs.perm tight22 hbig
    (fun k s hk => by obtain ⟨q, h1, h2, h3⟩ := hr k s hk; exact ⟨q, h1, h2, h3.trans hm1⟩)
    (.inl ⟨_, 1, hmax, by norm_num⟩)
  refine ⟨hc, hr, a, [(⟨[1]⟩, ⟨[8]⟩), (⟨[2]⟩, ⟨[7]⟩)], ha, ?_, by decide +kernel, ?_, ?_⟩
  · unfold OneToOne; decide +kernel
  · rw [(C20_card hs.perm hbig ha).1]; decide +kernel
  · have hlen : (pairsOf a).length = 2 := by
      rw [(C20_card hs.perm hbig ha).1]; decide +kernel
    obtain ⟨_, _, hone, hmem⟩ := C19_one_to_one hs.perm hbig ha
    -- compare with the diagonal
    have hdiag := (cost_total_maximal hs hbig hc hr hm1 ⟨_, hmax⟩ ha
      (l := [(⟨[1]⟩, ⟨[7]⟩), (⟨[2]⟩, ⟨[8]⟩)]) (by unfold OneToOne; decide +kernel)
      (by decide +kernel)).2
    generalize hp : pairsOf a = p at hlen hone hmem hdiag
    obtain ⟨x, y, rfl⟩ := List.length_eq_two.1 hlen
    have hx := hmem x (by simp)
    have hy := hmem y (by simp)
    have hx := tight22_scored hx.1 hx.2
    have hy := tight22_scored hy.1 hy.2
    rcases hx with rfl | rfl | rfl | rfl <;> rcases hy with rfl | rfl | rfl | rfl <;>
      first
      | (exfalso; revert hone; unfold OneToOne; decide +kernel)
      | (exfalso; revert hdiag; decide +kernel)
      | decide +kernel

/-! ## C22 -/

/-- star-shaped map: three tracks and three detections, all scored pairs use track 1 or
detection 7 -/
def star33 : ScoreMap := mkScores [(1, 7, 1), (1, 8, 1), (1, 9, 1), (2, 7, 1), (3, 7, 1)]

/-- C22 is false: whatever permutation the solver returns, `star33` gets an association
with a pair that has no score (i.e. was gated out). -/
theorem C22_gated_pair_associated {solve : Solver} (hs : IsPermSolver solve) :
    ∃ a, gnnAssociator solve star33 = .ok a ∧ ∃ x ∈ pairsOf a, ¬ Scored star33 x.1 x.2 := by
  have hbig : star33.entries.length < 2 ^ 64 := by decide +kernel
  obtain ⟨a, ha⟩ := C23_returns_partial hs star33 hbig (scoresIn_of_all (by decide +kernel))
    (.inl ⟨mkPair ⟨[1]⟩ ⟨[7]⟩, 1, by decide +kernel, by norm_num⟩)
  refine ⟨a, ha, ?_⟩
  by_contra hcon
  push Not at hcon
  have hlen : (pairsOf a).length = 3 := by
    rw [(C20_card hs hbig ha).1]; decide +kernel
  obtain ⟨_, _, hone, _⟩ := C19_one_to_one hs hbig ha
  have key : ∀ x : Uuid × Uuid, Scored star33 x.1 x.2 → x.1 = ⟨[1]⟩ ∨ x.2 = ⟨[7]⟩ := by
    rintro ⟨t, d⟩ h
    obtain ⟨s, h⟩ := scored_iff_mem.1 h
    have : ∀ e ∈ star33.entries, (ofLex e.1).1 = ⟨[1]⟩ ∨ (ofLex e.1).2 = ⟨[7]⟩ := by decide +kernel
    exact this _ h
  obtain ⟨x, y, z, hp⟩ := List.length_eq_three.1 hlen
  rw [hp] at hcon hone
  have hx := key x (hcon x (by simp))
  have hy := key y (hcon y (by simp))
  have hz := key z (hcon z (by simp))
  unfold OneToOne at hone
  simp only [List.map_cons, List.map_nil, List.nodup_cons, List.mem_cons, List.not_mem_nil,
    or_false, not_or, List.nodup_nil, and_true, not_false_eq_true] at hone
  obtain ⟨⟨⟨h1, h2⟩, h3⟩, ⟨⟨h4, h5⟩, h6⟩⟩ := hone
  rcases hx with hx | hx <;> rcases hy with hy | hy <;> rcases hz with hz | hz <;>
    simp_all

/-- C22: more generally, a gated pair is associated whenever the scored pairs do not
admit a one-to-one choice of the size the associator insists on. -/
theorem C22_gated_pair_forced {solve : Solver} (hs : IsPermSolver solve) {scores : ScoreMap}
    (hbig : scores.entries.length < 2 ^ 64) {a : AssociationMap}
    (h : gnnAssociator solve scores = .ok a)
    (hno : ∀ l, OneToOne l → (∀ x ∈ l, Scored scores x.1 x.2) →
      l.length < min (trackCount scores) (detectionCount scores)) :
    ∃ x ∈ pairsOf a, ¬ Scored scores x.1 x.2 := by
  by_contra hcon
  push Not at hcon
  obtain ⟨_, _, hone, _⟩ := C19_one_to_one hs hbig h
  have := hno _ hone hcon
  rw [(C20_card hs hbig h).1] at this
  exact lt_irrefl _ this

theorem IsMatching_card_le {T D : ℕ} {M : Finset (Fin T × Fin D)} (h : IsMatching M) :
    M.card ≤ min T D := by
  obtain ⟨τ, hτ⟩ := exists_extend M h
  rw [← card_matchOf τ]
  exact Finset.card_le_card hτ

/-- 10^31 / FLT_MAX is below half a unit in the last place of 1 -/
theorem e31_le : (10 : ℚ) ^ 31 ≤ fltMaxQ / 2 ^ 25 := by unfold fltMaxQ; norm_num

theorem ScoresIn.mono {scores : ScoreMap} {b b' : ℚ} (h : ScoresIn scores b) (hb : b ≤ b') :
    ScoresIn scores b' := fun k s hk => by
  obtain ⟨q, h1, h2, h3⟩ := h k s hk
  exact ⟨q, h1, h2, h3.trans hb⟩

theorem e31_le' : (10 : ℚ) ^ 31 ≤ fltMaxQ := by unfold fltMaxQ; norm_num

/-- costs in the presence of a missing pair: 10^8 for scored pairs, 0 for missing ones -/
theorem collapsed_costs {scores : ScoreMap} (hr : ScoresIn scores (10 ^ 31))
    (hnc : ¬ Complete scores) {mx : FP}
    {c : Fin (trackSet scores).size → Fin (detSet scores).size → ℤ}
    (hmx : dlibMax ⟨(trackSet scores).size, (detSet scores).size, cell scores⟩ = .ok mx)
    (hcost : ∀ i j, costOf mx (cell scores i j) = .ok (c i j))
    (p : Fin (trackSet scores).size × Fin (detSet scores).size) :
    c p.1 p.2 = if Scored scores (name scores p).1 (name scores p).2 then 100000000 else 0 := by
  have hr' := ScoresIn.mono hr e31_le'
  obtain ⟨m, rfl, hpos, ⟨i, j, hij⟩, hval⟩ := costs_eq hr' hmx hcost
  have hmiss : ∀ p : Fin (trackSet scores).size × Fin (detSet scores).size,
      ¬ Scored scores (name scores p).1 (name scores p).2 → cell scores p.1 p.2 = .fin fltMaxQ := by
    intro p hp
    exact cell_of_missing (p := p) (by unfold Scored at hp; simpa using hp)
  have hm : m = fltMaxQ := by
    apply le_antisymm
    · obtain ⟨q, hq, _, h1⟩ := cell_fin hr' i j
      rw [hij] at hq; cases hq; exact h1
    · unfold Complete at hnc
      push Not at hnc
      obtain ⟨t, d, ht, hd, hnot⟩ := hnc
      obtain ⟨i', hi⟩ := mem_iff_nth.1 (mem_trackSet.2 ht)
      obtain ⟨j', hj⟩ := mem_iff_nth.1 (mem_detSet.2 hd)
      have := hmiss (i', j') (by simp only [name, hi, hj]; exact hnot)
      exact (hval i' j' _ this).2.1
  subst hm
  split
  · rename_i hsc
    obtain ⟨s, hs'⟩ := Option.isSome_iff_exists.1 hsc
    obtain ⟨q, rfl, h0, h1⟩ := hr _ _ hs'
    rw [(hval _ _ q (cell_of_scored hs')).2.2]
    exact costQ_collapse hpos h0 (h1.trans e31_le)
  · rename_i hsc
    rw [(hval _ _ _ (hmiss p hsc)).2.2]
    exact costQ_self hpos

/-- C22, what holds (for scores up to 10^31): the association contains at least as many
scored pairs as any one-to-one choice of scored pairs. -/
theorem C22_most_scored_pairs_partial {solve : Solver} (hs : IsOptimalSolver solve)
    {scores : ScoreMap} (hbig : scores.entries.length < 2 ^ 64)
    (hr : ScoresIn scores (10 ^ 31)) {a : AssociationMap}
    (h : gnnAssociator solve scores = .ok a)
    {l : List (Uuid × Uuid)} (hl : OneToOne l) (hscored : ∀ x ∈ l, Scored scores x.1 x.2) :
    l.length ≤ ((pairsOf a).filter fun x => Scored scores x.1 x.2).length := by
  obtain ⟨F, hF, hmem⟩ := cells_of (scores := scores) hl
    (fun x hx => ⟨⟨_, hscored x hx⟩, ⟨_, hscored x hx⟩⟩)
  have hln : l.Nodup := List.Nodup.of_map _ hl.1
  by_cases hc : Complete scores
  · obtain ⟨_, _, _, h4⟩ := C19_one_to_one hs.perm hbig h
    rw [List.filter_eq_self.2 (fun x hx => by
      simp only [decide_eq_true_eq]
      exact hc _ _ (h4 x hx).1 (h4 x hx).2)]
    rw [(C20_card hs.perm hbig h).1, length_names hln hmem, ← trackSet_size, ← detSet_size]
    exact IsMatching_card_le hF
  · obtain ⟨mx, c, σ, hmx, hcost, ha, hopt⟩ := gnn_ok_optimal hs hbig h
    have hcol := collapsed_costs hr hc hmx hcost
    have hle := hopt (fun i j => by rw [hcol (i, j)]; split <;> norm_num) F hF
    have e1 : ∑ p ∈ F, c p.1 p.2 = 100000000 * (l.length : ℤ) := by
      rw [Finset.sum_congr rfl (g := fun _ => (100000000 : ℤ)), Finset.sum_const,
        length_names hln hmem, nsmul_eq_mul, mul_comm]
      intro p hp
      rw [hcol p, if_pos (hscored _ ((hmem _).2 ⟨p, hp, rfl⟩))]
    have e2 : ∑ p ∈ matchOf σ, c p.1 p.2
        = 100000000 * (((pairsOf a).filter fun x => Scored scores x.1 x.2).length : ℤ) := by
      have hmem' : ∀ x, x ∈ (pairsOf a).filter (fun x => Scored scores x.1 x.2) ↔
          ∃ p ∈ (matchOf σ).filter (fun p => Scored scores (name scores p).1 (name scores p).2),
            name scores p = x := by
        intro x
        rw [List.mem_filter, mem_pairsOf ha]
        constructor
        · rintro ⟨⟨p, hp, rfl⟩, hx⟩
          exact ⟨p, by simpa [hp] using hx, rfl⟩
        · rintro ⟨p, hp, rfl⟩
          simp only [Finset.mem_filter] at hp
          exact ⟨⟨p, hp.1, rfl⟩, by simpa using hp.2⟩
      rw [length_names ((nodup_pairsOf ha).filter _) hmem', Finset.sum_congr rfl (fun p _ => hcol p),
        ← Finset.sum_filter, Finset.sum_const, nsmul_eq_mul, mul_comm]
    rw [e1, e2] at hle
    omega

/-- C22, consequence: if the scored pairs admit a one-to-one choice of the full size,
no gated pair is associated. -/
theorem C22_no_gated_pair_if_avoidable_partial {solve : Solver} (hs : IsOptimalSolver solve)
    {scores : ScoreMap} (hbig : scores.entries.length < 2 ^ 64)
    (hr : ScoresIn scores (10 ^ 31)) {a : AssociationMap}
    (h : gnnAssociator solve scores = .ok a)
    {l : List (Uuid × Uuid)} (hl : OneToOne l) (hscored : ∀ x ∈ l, Scored scores x.1 x.2)
    (hlen : l.length = min (trackCount scores) (detectionCount scores)) :
    ∀ x ∈ pairsOf a, Scored scores x.1 x.2 := by
  have h1 := C22_most_scored_pairs_partial hs hbig hr h hl hscored
  rw [hlen, ← (C20_card hs.perm hbig h).1] at h1
  have h2 := List.length_filter_le (fun x => decide (Scored scores x.1 x.2)) (pairsOf a)
  have h3 := List.length_filter_eq_length_iff.1 (le_antisymm h2 h1)
  intro x hx
  simpa using h3 x hx

/-- C22: for scores up to 10^31 an optimal solver associates a gated pair exactly if there is no
one-to-one choice of scored pairs with as many pairs as the smaller of the numbers of tracks and
detections. -/
theorem C22_gated_iff {solve : Solver} (hs : IsOptimalSolver solve)
    {scores : ScoreMap} (hbig : scores.entries.length < 2 ^ 64)
    (hr : ScoresIn scores (10 ^ 31)) {a : AssociationMap}
    (h : gnnAssociator solve scores = .ok a) :
    (∃ x ∈ pairsOf a, ¬ Scored scores x.1 x.2) ↔
      ¬ ∃ l, OneToOne l ∧ (∀ x ∈ l, Scored scores x.1 x.2) ∧
        l.length = min (trackCount scores) (detectionCount scores) := by
  constructor
  · rintro ⟨x, hx, hns⟩ ⟨l, hl, hsc, hlen⟩
    exact hns (C22_no_gated_pair_if_avoidable_partial hs hbig hr h hl hsc hlen x hx)
  · intro hno
    by_contra hcon
    push Not at hcon
    obtain ⟨_, _, hone, _⟩ := C19_one_to_one hs.perm hbig h
    exact hno ⟨_, hone, hcon, (C20_card hs.perm hbig h).1⟩

/-- 2x3 map with gated pairs, for the examples and for C24 -/
def gated23 (p q : ℚ) : ScoreMap := mkScores [(1, 7, p), (1, 8, q), (2, 9, 3)]

example : ScoresIn (gated23 1 100) (10 ^ 31) ∧ ¬ Complete (gated23 1 100) ∧
    OneToOne [((⟨[1]⟩ : Uuid), (⟨[7]⟩ : Uuid)), (⟨[2]⟩, ⟨[9]⟩)] ∧
    (∀ x ∈ [((⟨[1]⟩ : Uuid), (⟨[7]⟩ : Uuid)), (⟨[2]⟩, ⟨[9]⟩)], Scored (gated23 1 100) x.1 x.2) ∧
    min (trackCount (gated23 1 100)) (detectionCount (gated23 1 100)) = 2 ∧
    ∀ solve, IsPermSolver solve → ∃ a, gnnAssociator solve (gated23 1 100) = .ok a := by
  refine ⟨scoresIn_of_all (by decide +kernel), ?_, by unfold OneToOne; decide +kernel,
    by decide +kernel, by decide +kernel, ?_⟩
  · intro hc
    have := hc ⟨[1]⟩ ⟨[9]⟩ ⟨⟨[7]⟩, by decide +kernel⟩ ⟨⟨[2]⟩, by decide +kernel⟩
    revert this; decide +kernel
  · intro solve hs
    exact C23_returns_partial hs _ (by decide +kernel) (scoresIn_of_all (by decide +kernel))
      (.inl ⟨mkPair ⟨[2]⟩ ⟨[9]⟩, 3, by decide +kernel, by norm_num⟩)

/-- the gated pair (2, 8) can be avoided, and is -/
example : ∃ a, ∃ solve : Solver, IsOptimalSolver solve ∧
    gnnAssociator solve (mkScores [(1, 7, 1), (1, 8, 2), (2, 7, 3)]) = .ok a ∧
    ∀ x ∈ pairsOf a, Scored (mkScores [(1, 7, 1), (1, 8, 2), (2, 7, 3)]) x.1 x.2 := by
  obtain ⟨solve, hs⟩ := exists_optimalSolver
  obtain ⟨a, ha⟩ := C23_returns_partial hs.perm (mkScores [(1, 7, 1), (1, 8, 2), (2, 7, 3)])
    (by decide +kernel) (scoresIn_of_all (by decide +kernel))
    (.inl ⟨mkPair ⟨[2]⟩ ⟨[7]⟩, 3, by decide +kernel, by norm_num⟩)
  refine ⟨a, solve, hs, ha, fun x hx => ?_⟩
  by_contra hcon
  refine (C22_gated_iff hs (by decide +kernel) (scoresIn_of_all (by decide +kernel)) ha).1
    ⟨x, hx, hcon⟩ ⟨[((⟨[1]⟩ : Uuid), (⟨[8]⟩ : Uuid)), (⟨[2]⟩, ⟨[7]⟩)],
      by unfold OneToOne; decide +kernel, by decide +kernel, by decide +kernel⟩

/-! ## C24 -/

/-- C24: for every matrix of finite non-negative scores with a positive element the
costs are defined, lie in [0, 10^8], reverse the order of the scores, are 0 at the
largest score and 10^8 at zero scores, and approximate 10^8 (1 - s/max)
within 11 units. -/
theorem C24_costs {M : DMat FP} (hfin : ∀ i j, ∃ q, M.get i j = .fin q ∧ 0 ≤ q)
    (hpos : ∃ i j q, M.get i j = .fin q ∧ 0 < q) :
    ∃ (C : Fin M.nr → Fin M.nc → ℤ) (m : ℚ), costMatrix M = .ok ⟨M.nr, M.nc, C⟩ ∧
      (∃ i j, M.get i j = .fin m) ∧ (∀ i j q, M.get i j = .fin q → q ≤ m) ∧
      (∀ i j, 0 ≤ C i j ∧ C i j ≤ 100000000) ∧
      (∀ i j i' j' q q', M.get i j = .fin q → M.get i' j' = .fin q' → q ≤ q' → C i' j' ≤ C i j) ∧
      (∀ i j, M.get i j = .fin m → C i j = 0) ∧
      (∀ i j, M.get i j = .fin 0 → C i j = 100000000) ∧
      (∀ i j q, M.get i j = .fin q → |(C i j : ℚ) - 100000000 * (1 - q / m)| ≤ 11) := by
  obtain ⟨i₀, j₀, q₀, h₀, hq₀⟩ := hpos
  obtain ⟨m, h1, h2, h3⟩ := dlibMax_fin (m := M) (i₀ := i₀) (j₀ := j₀)
    (fun i j => by obtain ⟨q, hq, _⟩ := hfin i j; exact ⟨q, hq⟩)
  have hm : 0 < m := hq₀.trans_le (h2 _ _ _ h₀)
  choose q hq hq0 using hfin
  have hqm : ∀ i j, q i j ≤ m := fun i j => h2 i j _ (hq i j)
  have val : ∀ i j x, M.get i j = .fin x → q i j = x := by
    intro i j x hx
    rw [hq i j] at hx; cases hx; rfl
  refine ⟨fun i j => costQ m (q i j), m, ?_, h3, h2, ?_, ?_, ?_, ?_, ?_⟩
  · unfold costMatrix
    rw [h1]
    exact DMat.sequence_ok (m := ⟨M.nr, M.nc, fun i j => costOf (.fin m) (M.get i j)⟩)
      (fun i j => by simp only; rw [hq i j]; exact costOf_eq hm (hq0 i j) (hqm i j))
  · intro i j; exact costQ_range hm (hq0 i j) (hqm i j)
  · intro i j i' j' x x' hx hx' hle
    refine costQ_anti hm (hq0 i j) ?_ (hqm i' j')
    rw [val _ _ _ hx, val _ _ _ hx']; exact hle
  · intro i j hx
    simp only [val _ _ _ hx]; exact costQ_self hm
  · intro i j hx
    simp only [val _ _ _ hx]; exact costQ_zero
  · intro i j x hx
    have := costQ_err hm (hq0 i j) (hqm i j)
    rw [val _ _ _ hx] at this
    simp only [val _ _ _ hx]; exact this

example : ∃ M : DMat FP, (∀ i j, ∃ q, M.get i j = .fin q ∧ 0 ≤ q) ∧
    ∃ i j q, M.get i j = .fin q ∧ 0 < q := by
  refine ⟨⟨2, 2, fun i j => .fin ((i.1 + 2 * j.1 : ℕ) : ℚ)⟩, fun i j => ⟨_, rfl, by positivity⟩,
    1, 1, _, rfl, by norm_num⟩

/-- concrete costs: 1/3 of the maximum -/
example : costOf (.fin 3) (.fin 1) = .ok 66666664 := by decide +kernel

/-- C24: distinct scores need not stay distinguishable.  As soon as one pair is missing,
the association does not depend on the scores at all (for scores up to 10^31): two maps
with the same keys give the same result. -/
theorem C24_gating_erases_scores (solve : Solver) {scores scores' : ScoreMap}
    (hr : ScoresIn scores (10 ^ 31)) (hr' : ScoresIn scores' (10 ^ 31))
    (hnc : ¬ Complete scores)
    (hkeys : ∀ t d, Scored scores t d ↔ Scored scores' t d) :
    gnnAssociator solve scores = gnnAssociator solve scores' := by
  have hts : trackSet scores = trackSet scores' := SSet.ext_mem fun t => by
    rw [mem_trackSet, mem_trackSet]; unfold ScoredTrack; simp only [hkeys]
  have hds : detSet scores = detSet scores' := SSet.ext_mem fun t => by
    rw [mem_detSet, mem_detSet]; unfold ScoredDetection; simp only [hkeys]
  have hnc' : ¬ Complete scores' := by
    intro h
    apply hnc
    intro t d ht hd
    rw [hkeys]
    exact h t d (by obtain ⟨d, h⟩ := ht; exact ⟨d, (hkeys _ _).1 h⟩)
      (by obtain ⟨t, h⟩ := hd; exact ⟨t, (hkeys _ _).1 h⟩)
  -- the cost matrix as a function of keys only
  let g : SSet Uuid → SSet Uuid → (Uuid → Uuid → Bool) → DMat ℤ := fun ts ds S =>
    ⟨ts.size, ds.size, fun r c => if S (ts.nth r) (ds.nth c) then 100000000 else 0⟩
  have key : ∀ sc : ScoreMap, ScoresIn sc (10 ^ 31) → ¬ Complete sc →
      costMatrix ⟨(trackSet sc).size, (detSet sc).size, cell sc⟩
        = .ok (g (trackSet sc) (detSet sc) (fun t d => decide (Scored sc t d))) := by
    intro sc hr hnc
    rcases costMatrix_cases ⟨(trackSet sc).size, (detSet sc).size, cell sc⟩ with
      h | ⟨mx, c, hmx, hc, hcost⟩
    · exfalso
      have hne : sc.entries ≠ [] := by
        intro he
        apply hnc
        rintro t d ⟨d', h1⟩
        obtain ⟨s, h1⟩ := scored_iff_mem.1 h1
        rw [he] at h1; simp at h1
      have hub : ((gnnAssociator (fun n _ => List.ofFn fun i : Fin n => (i.1 : ℤ)) sc)).IsUb :=
        gnn_ub_of_cost h
      -- definedness needs no bound on the size
      unfold Complete at hnc
      push Not at hnc
      obtain ⟨t, d, ht, hd, hnot⟩ := hnc
      obtain ⟨i', hi⟩ := mem_iff_nth.1 (mem_trackSet.2 ht)
      obtain ⟨j', hj⟩ := mem_iff_nth.1 (mem_detSet.2 hd)
      have hr'' := ScoresIn.mono hr e31_le'
      have hmiss : cell sc i' j' = .fin fltMaxQ := cell_of_missing (p := (i', j')) (by
        simp only [name, hi, hj]; unfold Scored at hnot; simpa using hnot)
      obtain ⟨C, m, hC, _⟩ := C24_costs
        (M := ⟨(trackSet sc).size, (detSet sc).size, cell sc⟩)
        (fun i j => by obtain ⟨q, h1, h2, _⟩ := cell_fin hr'' i j; exact ⟨q, h1, h2⟩)
        ⟨i', j', _, hmiss, by unfold fltMaxQ; norm_num⟩
      rw [hC] at h
      exact absurd h (by simp)
    · rw [hc]
      congr 2
      funext i j
      have := collapsed_costs hr hnc hmx hcost (i, j)
      simp only at this
      rw [this]
      by_cases hsc : Scored sc ((trackSet sc).nth i) ((detSet sc).nth j)
      · rw [if_pos (by simpa [name] using hsc), if_pos (by simpa using hsc)]
      · rw [if_neg (by simpa [name] using hsc), if_neg (by simpa using hsc)]
  unfold gnnAssociator
  rw [scoreMatrix_eq, scoreMatrix_eq]
  simp only [key scores hr hnc, key scores' hr' hnc']
  have hS : (fun t d => decide (Scored scores t d)) = fun t d => decide (Scored scores' t d) := by
    funext t d; simp only [hkeys]
  rw [hts, hds, hS]

theorem gated23_scored {p q : ℚ} (t d : Uuid) : Scored (gated23 p q) t d ↔
    (t, d) = ((⟨[1]⟩ : Uuid), (⟨[7]⟩ : Uuid)) ∨ (t, d) = ((⟨[1]⟩ : Uuid), (⟨[8]⟩ : Uuid)) ∨
    (t, d) = ((⟨[2]⟩ : Uuid), (⟨[9]⟩ : Uuid)) := by
  unfold Scored gated23 mkScores
  simp only [List.foldl_cons, List.foldl_nil, SMap.find?_set, SMap.find?_empty]
  have hp : ∀ a b : Uuid, mkPair t d = mkPair a b ↔ (t, d) = (a, b) := fun a b => Iff.rfl
  simp only [hp]
  split
  · simp [*]
  · split
    · simp [*]
    · split <;> simp [*]

/-- C24, consequence: the associator is not a nearest-neighbour associator once a pair
is gated.  For every optimal solver there is a score map (scores 1, 3 and 100) on which
it returns an association that is worse by 99 than another one-to-one choice of scored
pairs of the same size. -/
theorem C24_not_nearest_after_gating {solve : Solver} (hs : IsOptimalSolver solve) :
    ∃ scores a l, ScoresIn scores 100 ∧ gnnAssociator solve scores = .ok a ∧ OneToOne l ∧
      (∀ x ∈ l, Scored scores x.1 x.2) ∧ (∀ x ∈ pairsOf a, Scored scores x.1 x.2) ∧
      l.length = (pairsOf a).length ∧
      totalScore scores l + 99 = totalScore scores (pairsOf a) := by
  have hr1 : ScoresIn (gated23 1 100) 100 := scoresIn_of_all (by decide +kernel)
  have hr2 : ScoresIn (gated23 100 1) 100 := scoresIn_of_all (by decide +kernel)
  have hb : (100 : ℚ) ≤ 10 ^ 31 := by norm_num
  have hnc : ¬ Complete (gated23 1 100) := by
    intro hc
    have := hc ⟨[1]⟩ ⟨[9]⟩ ⟨⟨[7]⟩, by decide +kernel⟩ ⟨⟨[2]⟩, by decide +kernel⟩
    revert this; decide +kernel
  have heq : gnnAssociator solve (gated23 1 100) = gnnAssociator solve (gated23 100 1) :=
    C24_gating_erases_scores solve (ScoresIn.mono hr1 hb) (ScoresIn.mono hr2 hb) hnc
      (fun t d => by rw [gated23_scored, gated23_scored])
  have hbig : (gated23 1 100).entries.length < 2 ^ 64 := by decide +kernel
  obtain ⟨a, ha⟩ := C23_returns_partial hs.perm (gated23 1 100) hbig
    (ScoresIn.mono hr1 (hb.trans e31_le'))
    (.inl ⟨mkPair ⟨[2]⟩ ⟨[9]⟩, 3, by decide +kernel, by norm_num⟩)
  have ha' := heq ▸ ha
  have hlen : (pairsOf a).length = 2 := by
    rw [(C20_card hs.perm hbig ha).1]; decide +kernel
  obtain ⟨_, _, hone, _⟩ := C19_one_to_one hs.perm hbig ha
  have hall := C22_no_gated_pair_if_avoidable_partial hs hbig (ScoresIn.mono hr1 hb) ha
    (l := [(⟨[1]⟩, ⟨[7]⟩), (⟨[2]⟩, ⟨[9]⟩)]) (by unfold OneToOne; decide +kernel)
    (by decide +kernel) (by decide +kernel)
  -- the association uses (1,7) or (1,8)
  have htot : (totalScore (gated23 1 100) (pairsOf a) = 4 ∧ totalScore (gated23 100 1) (pairsOf a) = 103)
      ∨ (totalScore (gated23 1 100) (pairsOf a) = 103 ∧ totalScore (gated23 100 1) (pairsOf a) = 4) := by
    generalize pairsOf a = p at hlen hone hall
    obtain ⟨x, y, rfl⟩ := List.length_eq_two.1 hlen
    have hx := (gated23_scored _ _).1 (hall x (by simp))
    have hy := (gated23_scored _ _).1 (hall y (by simp))
    simp only [Prod.mk.eta] at hx hy
    rcases hx with rfl | rfl | rfl <;> rcases hy with rfl | rfl | rfl <;>
      first
      | (exfalso; revert hone; unfold OneToOne; decide +kernel)
      | (left; decide +kernel)
      | (right; decide +kernel)
  rcases htot with ⟨_, h2⟩ | ⟨h1, _⟩
  · refine ⟨gated23 100 1, a, [(⟨[1]⟩, ⟨[8]⟩), (⟨[2]⟩, ⟨[9]⟩)], hr2, ha',
      by unfold OneToOne; decide +kernel, by decide +kernel, ?_, by rw [hlen]; rfl, ?_⟩
    · intro x hx
      rw [gated23_scored]
      exact (gated23_scored (p := 1) (q := 100) _ _).1 (hall x hx)
    · rw [h2]; decide +kernel
  · refine ⟨gated23 1 100, a, [(⟨[1]⟩, ⟨[7]⟩), (⟨[2]⟩, ⟨[9]⟩)], hr1, ha,
      by unfold OneToOne; decide +kernel, by decide +kernel, hall, by rw [hlen]; rfl, ?_⟩
    rw [h1]; decide +kernel

/-! ## C25 -/

/-- C25: a track has an association iff its UUID is a key; a detection iff its UUID is
in some list. -/
theorem C25_has_association {τ S C δ S' C' : Type} [TrackOps τ S C] [TrackOps δ S' C']
    (a : AssociationMap) (t : τ) (d : δ) :
    ((HasAssociation.new a).track t = true ↔ (a.find? (TrackOps.uuid t)).isSome) ∧
    ((HasAssociation.new a).detection d = true ↔
      ∃ u l, a.find? u = some l ∧ TrackOps.uuid d ∈ l) := by
  have key : ∀ (l : List (Uuid × List Uuid)) (h : HasAssociation),
      (∀ u, u ∈ (l.foldl (fun (h : HasAssociation) e =>
        (⟨e.1 :: h.associatedTracks, e.2 ++ h.associatedDetections⟩ : HasAssociation)) h).associatedTracks
        ↔ u ∈ h.associatedTracks ∨ u ∈ l.map (·.1)) ∧
      (∀ u, u ∈ (l.foldl (fun (h : HasAssociation) e =>
        (⟨e.1 :: h.associatedTracks, e.2 ++ h.associatedDetections⟩ : HasAssociation)) h).associatedDetections
        ↔ u ∈ h.associatedDetections ∨ ∃ e ∈ l, u ∈ e.2) := by
    intro l
    induction l with
    | nil => simp
    | cons e l ih =>
      intro h
      obtain ⟨h1, h2⟩ := ih ⟨e.1 :: h.associatedTracks, e.2 ++ h.associatedDetections⟩
      constructor
      · intro u
        rw [List.foldl_cons, h1]
        simp only [List.mem_cons, List.map_cons]
        tauto
      · intro u
        rw [List.foldl_cons, h2]
        simp only [List.mem_append, List.mem_cons, exists_eq_or_imp]
        tauto
  obtain ⟨h1, h2⟩ := key a.entries ⟨[], []⟩
  constructor
  · unfold HasAssociation.track HasAssociation.new
    rw [decide_eq_true_eq, h1, SMap.find?_isSome]
    simp [SMap.keys]
  · unfold HasAssociation.detection HasAssociation.new
    rw [decide_eq_true_eq, h2]
    simp only [List.not_mem_nil, false_or, Prod.exists, SMap.find?_eq_some]

example : let a : AssociationMap := SMap.empty.set ⟨[1]⟩ [⟨[7]⟩, ⟨[8]⟩]
    (HasAssociation.new a).track (⟨0, 5, 3, ⟨[1]⟩, .unknown⟩ : DynObj ℕ ℕ) = true ∧
    (HasAssociation.new a).track (⟨0, 5, 3, ⟨[7]⟩, .unknown⟩ : DynObj ℕ ℕ) = false ∧
    (HasAssociation.new a).detection (⟨0, 5, 3, ⟨[8]⟩, .unknown⟩ : DynObj ℕ ℕ) = true := by
  decide +kernel

/-! ## C26 -/

/-- C26: the sets gain exactly the UUIDs of the map, stay in increasing order, and the
matrix holds the scores by rank, `FLT_MAX` where there is none. -/
theorem C26_score_matrix (scores : ScoreMap) (ts ds : SSet Uuid) :
    let r := scoreMatrix scores ts ds
    (∀ t, t ∈ r.2.1.elems ↔ t ∈ ts.elems ∨ ScoredTrack scores t) ∧
    (∀ d, d ∈ r.2.2.elems ↔ d ∈ ds.elems ∨ ScoredDetection scores d) ∧
    r.2.1.elems.Pairwise (· < ·) ∧ r.2.2.elems.Pairwise (· < ·) ∧
    r.1.nr = r.2.1.elems.length ∧ r.1.nc = r.2.2.elems.length ∧
    ∀ (i : Fin r.1.nr) (j : Fin r.1.nc) (t d : Uuid),
      r.2.1.elems[i.1]? = some t → r.2.2.elems[j.1]? = some d →
      (∀ s, scores.find? (mkPair t d) = some s → r.1.get i j = s) ∧
      (¬ Scored scores t d → r.1.get i j = .fin ((2 ^ 24 - 1) * 2 ^ 104)) := by
  intro r
  obtain ⟨h1, h2⟩ := mem_collect scores ts ds
  refine ⟨h1, h2, r.2.1.sorted, r.2.2.sorted, rfl, rfl, ?_⟩
  intro i j t d ht hd
  have ht' : r.2.1.nth i = t := by
    have := List.getElem?_eq_getElem (l := r.2.1.elems) i.2
    rw [ht] at this; exact (Option.some.inj this).symm
  have hd' : r.2.2.nth j = d := by
    have := List.getElem?_eq_getElem (l := r.2.2.elems) j.2
    rw [hd] at this; exact (Option.some.inj this).symm
  subst ht' hd'
  constructor
  · intro s hs
    show (match scores.find? (mkPair (r.2.1.nth i) (r.2.2.nth j)) with
      | some s => s
      | none => FP.fltMax) = s
    rw [hs]
  · intro hn
    unfold Scored at hn
    have hnone : scores.find? (mkPair (r.2.1.nth i) (r.2.2.nth j)) = none := by simpa using hn
    show (match scores.find? (mkPair (r.2.1.nth i) (r.2.2.nth j)) with
      | some s => s
      | none => FP.fltMax) = _
    rw [hnone]; rfl

example : (scoreMatrix (gated23 1 2) .empty .empty).2.1.elems = [⟨[1]⟩, ⟨[2]⟩] ∧
    (scoreMatrix (gated23 1 2) .empty .empty).2.2.elems = [⟨[7]⟩, ⟨[8]⟩, ⟨[9]⟩] ∧
    (scoreMatrix (gated23 1 2) .empty .empty).1.toList
      = [.fin 1, .fin 2, .fltMax, .fltMax, .fltMax, .fin 3] := by
  refine ⟨?_, ?_, ?_⟩ <;> decide +kernel

/-! ## C27 -/

/-- C27: `get_element_at` is the i-th smallest element, or `std::out_of_range`. -/
theorem C27_get_element_at (s : SSet Uuid) (i : ℕ) :
    s.elems.Pairwise (· < ·) ∧
    (∀ h : i < s.elems.length, getElementAt s i = .ok s.elems[i]) ∧
    (s.elems.length ≤ i → getElementAt s i = .throw .outOfRange) :=
  ⟨s.sorted, fun h => getElementAt_lt h, fun h => getElementAt_ge h⟩

theorem u64_lt_iff {x : ℤ} {n : ℕ} (h1 : -2 ^ 63 ≤ x) (h2 : x < 2 ^ 63) (hn : n ≤ 2 ^ 63) :
    u64 x < n ↔ 0 ≤ x ∧ x < n := by
  rw [u64_eq]
  omega

/-- C27: for a vector of `long`s, `association_map_from_score_map` throws
`std::out_of_range` iff an in-range assignment sits beyond the last track; otherwise
the i-th smallest track is mapped to exactly the assigned detection for the in-range
assignments, and other tracks have no entry. -/
theorem C27_association_map (xs : List ℤ) (ts ds : SSet Uuid)
    (hlong : ∀ x ∈ xs, -2 ^ 63 ≤ x ∧ x < 2 ^ 63) (hds : ds.elems.length ≤ 2 ^ 63) :
    (associationMap xs ts ds = .throw .outOfRange ↔
      ∃ (k : ℕ) (x : ℤ), xs[k]? = some x ∧ 0 ≤ x ∧ x < ds.elems.length ∧ ts.elems.length ≤ k) ∧
    ((¬ ∃ (k : ℕ) (x : ℤ), xs[k]? = some x ∧ 0 ≤ x ∧ x < ds.elems.length ∧ ts.elems.length ≤ k) →
      ∃ a, associationMap xs ts ds = .ok a ∧ ∀ t l, a.find? t = some l ↔
        ∃ (k : ℕ) (j : ℕ) (d : Uuid), xs[k]? = some (j : ℤ) ∧ ts.elems[k]? = some t ∧
          ds.elems[j]? = some d ∧ l = [d]) := by
  have hmem : ∀ {k x}, xs[k]? = some x → -2 ^ 63 ≤ x ∧ x < 2 ^ 63 := fun h =>
    hlong _ (List.mem_of_getElem? h)
  have hpos : (¬ ∃ (k : ℕ) (x : ℤ), xs[k]? = some x ∧ 0 ≤ x ∧ x < ds.elems.length ∧ ts.elems.length ≤ k) →
      ∃ a, associationMap xs ts ds = .ok a ∧ ∀ t l, a.find? t = some l ↔
        ∃ (k : ℕ) (j : ℕ) (d : Uuid), xs[k]? = some (j : ℤ) ∧ ts.elems[k]? = some t ∧
          ds.elems[j]? = some d ∧ l = [d] := by
    intro hno
    obtain ⟨a, ha, hf⟩ := assocLoop_ok (ts := ts) (ds := ds) (xs := xs) (i := 0) (a := SMap.empty)
      (by
        intro k x hk hx
        obtain ⟨h1, h2⟩ := hmem hk
        have := (u64_lt_iff h1 h2 hds).1 hx
        by_contra hge
        exact hno ⟨k, x, hk, this.1, this.2, by
          have : ts.size = ts.elems.length := rfl
          omega⟩) (by simp)
    refine ⟨a, ha, fun t l => ?_⟩
    rw [hf]
    simp only [SMap.find?_empty, reduceCtorEq, false_or, zero_add]
    constructor
    · rintro ⟨k, x, d, hk, hd, ht, rfl⟩
      obtain ⟨h1, h2⟩ := hmem hk
      have hlt : u64 x < ds.elems.length := (List.getElem?_eq_some_iff.1 hd).1
      have hx := (u64_lt_iff h1 h2 hds).1 hlt
      have hux : ((u64 x : ℕ) : ℤ) = x := by rw [u64_eq]; omega
      exact ⟨k, u64 x, d, by rw [hux]; exact hk, ht, hd, rfl⟩
    · rintro ⟨k, j, d, hk, ht, hd, rfl⟩
      obtain ⟨h1, h2⟩ := hmem hk
      have : u64 (j : ℤ) = j := by rw [u64_eq]; omega
      exact ⟨k, j, d, hk, by rw [this]; exact hd, ht, rfl⟩
  refine ⟨⟨?_, ?_⟩, hpos⟩
  · intro h
    by_contra hno
    obtain ⟨a, ha, _⟩ := hpos hno
    rw [h] at ha; simp at ha
  · rintro ⟨k, x, hk, h0, h1, h2⟩
    obtain ⟨h3, h4⟩ := hmem hk
    exact assocLoop_throw ⟨k, x, hk, (u64_lt_iff h3 h4 hds).2 ⟨h0, h1⟩, by
      have : ts.size = ts.elems.length := rfl
      omega⟩

example : let ts : SSet Uuid := SSet.empty.insert ⟨[2]⟩ |>.insert ⟨[1]⟩
    let ds : SSet Uuid := SSet.empty.insert ⟨[8]⟩ |>.insert ⟨[7]⟩
    (match associationMap [1, -1, 5] ts ds with | .ok a => a.entries | _ => []) = [(⟨[1]⟩, [⟨[8]⟩])]
    ∧ associationMap [1, -1, 0] ts ds = .throw .outOfRange := by
  refine ⟨by decide +kernel, ?_⟩
  exact (C27_association_map _ _ _ (by decide +kernel) (by decide +kernel)).1.2
    ⟨2, 0, by decide +kernel, by decide +kernel, by decide +kernel, by decide +kernel⟩

/-! ## C28 -/

/-- C28: the result is square of size max(rows, columns); the original elements are at
their place and every other element is the padding value (in particular no element
stays uninitialised, i.e. `none`). -/
theorem C28_make_square {α : Type} (m : DMat α) (pad : α) :
    let q := makeSquareMatrix m pad
    q.nr = max m.nr m.nc ∧ q.nc = max m.nr m.nc ∧
    ∀ (i : Fin q.nr) (j : Fin q.nc),
      (∀ (hi : i.1 < m.nr) (hj : j.1 < m.nc), q.get i j = some (m.get ⟨i.1, hi⟩ ⟨j.1, hj⟩)) ∧
      (m.nr ≤ i.1 ∨ m.nc ≤ j.1 → q.get i j = some pad) := by
  intro q
  have hq : q = _ := makeSquareMatrix_eq m pad
  clear_value q
  subst hq
  refine ⟨rfl, rfl, fun i j => ⟨fun hi hj => dif_pos ⟨hi, hj⟩, fun h => dif_neg (by omega)⟩⟩

example : (makeSquareMatrix (⟨3, 1, fun i _ => i.1⟩ : DMat ℕ) 9).toList
    = [some 0, some 9, some 9, some 1, some 9, some 9, some 2, some 9, some 9] := by decide +kernel

/-! ## C70 -/

/-- the associator asks the solver about one matrix: the padded costs -/
theorem gnn_depends {scores : ScoreMap}
    {c : Fin (trackSet scores).size → Fin (detSet scores).size → ℤ}
    (hc : costMatrix ⟨(trackSet scores).size, (detSet scores).size, cell scores⟩
      = .ok ⟨(trackSet scores).size, (detSet scores).size, c⟩) (solve solve' : Solver)
    (h : solve _ (padded c intLowest) = solve' _ (padded c intLowest)) :
    gnnAssociator solve scores = gnnAssociator solve' scores := by
  unfold gnnAssociator
  rw [scoreMatrix_eq]
  simp only [hc]
  unfold Outcome.bind
  simp only [readAll_makeSquare]
  simp only [maxCostAssignment, dite_true, Fin.cast_eq_self]
  rw [h]

/-- if the associator answers differently for two solvers, they answered that matrix
differently -/
theorem gnn_asks {scores : ScoreMap} (hr : ScoresIn scores fltMaxQ)
    (hpos : (∃ k q, scores.find? k = some (.fin q) ∧ 0 < q) ∨
      (scores.entries ≠ [] ∧ ¬ Complete scores)) (hbig : scores.entries.length < 2 ^ 64) :
    ∃ c : Fin (trackSet scores).size → Fin (detSet scores).size → ℤ,
      costMatrix ⟨(trackSet scores).size, (detSet scores).size, cell scores⟩
        = .ok ⟨(trackSet scores).size, (detSet scores).size, c⟩ ∧
      ∀ i j, 0 ≤ c i j ∧ c i j ≤ 100000000 := by
  have hs : IsPermSolver (fun n _ => List.ofFn fun i : Fin n => (i.1 : ℤ)) :=
    fun n _ => ⟨1, rfl⟩
  obtain ⟨a, ha⟩ := C23_returns_partial hs scores hbig hr hpos
  rcases costMatrix_cases ⟨(trackSet scores).size, (detSet scores).size, cell scores⟩ with
    h | ⟨mx, c, hmx, hc, hcell⟩
  · have := gnn_ub_of_cost (solve := fun n _ => List.ofFn fun i : Fin n => (i.1 : ℤ)) h
    rw [ha] at this; simp at this
  · refine ⟨c, hc, fun i j => ?_⟩
    obtain ⟨m, rfl, hm, -, hval⟩ := costs_eq hr hmx hcell
    obtain ⟨q, hq, -, -⟩ := cell_fin hr i j
    obtain ⟨h1, h2, h3⟩ := hval i j q hq
    rw [h3]
    exact costQ_range hm h1 h2

/-- C70 is false: with more tracks than detections the associator asks the solver about one
matrix, and *every* row of it has two elements whose difference does not fit in `int`. -/
theorem C70_row_differences_overflow {scores : ScoreMap} (hr : ScoresIn scores fltMaxQ)
    (hpos : (∃ k q, scores.find? k = some (.fin q) ∧ 0 < q) ∨
      (scores.entries ≠ [] ∧ ¬ Complete scores)) (hbig : scores.entries.length < 2 ^ 64)
    (hTD : detectionCount scores < trackCount scores) :
    ∃ (n : ℕ) (M : Fin n → Fin n → ℤ), n = trackCount scores ∧
      (∀ solve solve' : Solver, solve n M = solve' n M →
        gnnAssociator solve scores = gnnAssociator solve' scores) ∧
      (∃ solve solve' : Solver, IsPermSolver solve ∧ IsPermSolver solve' ∧
        (∀ n' M', (⟨n', M'⟩ : Σ k : ℕ, Fin k → Fin k → ℤ) ≠ ⟨n, M⟩ → solve n' M' = solve' n' M') ∧
        gnnAssociator solve scores ≠ gnnAssociator solve' scores) ∧
      ∀ i, ∃ j j', M i j - M i j' > 2 ^ 31 - 1 := by
  obtain ⟨c, hc, hcr⟩ := gnn_asks hr hpos hbig
  have hD : 0 < (detSet scores).size := by
    have hne : scores.entries ≠ [] := by
      rcases hpos with ⟨k, q, hk, _⟩ | ⟨h, _⟩
      · intro h
        have := SMap.find?_eq_some.1 hk
        rw [h] at this; simp at this
      · exact h
    obtain ⟨e, he⟩ := List.exists_mem_of_ne_nil _ hne
    rw [detSet_size]
    unfold detectionCount
    rw [Finset.card_pos]
    exact ⟨(ofLex e.1).2, List.mem_toFinset.2 (List.mem_map.2 ⟨e, he, rfl⟩)⟩
  rw [← trackSet_size, ← detSet_size] at hTD
  refine ⟨_, padded c intLowest, ?_, gnn_depends hc, ?_, fun i => ?_⟩
  · rw [← trackSet_size]; exact max_eq_left hTD.le
  · classical
    let τ : Equiv.Perm (Fin (max (trackSet scores).size (detSet scores).size)) :=
      Equiv.swap ⟨0, by omega⟩ ⟨(detSet scores).size, by omega⟩
    let solve : Solver := fun n _ => List.ofFn fun i : Fin n => (i.1 : ℤ)
    let solve' : Solver := fun n M =>
      if (⟨n, M⟩ : Σ k : ℕ, Fin k → Fin k → ℤ) = ⟨_, padded c intLowest⟩ then
        List.ofFn fun i => ((τ i).1 : ℤ) else solve n M
    have hsz : max (trackSet scores).size (detSet scores).size < 2 ^ 64 :=
      (max_le (trackSet_size_le scores) (detSet_size_le scores)).trans_lt hbig
    refine ⟨solve, solve', fun n _ => ⟨1, rfl⟩, fun n M => ?_, fun n M h => (if_neg h).symm, ?_⟩
    · by_cases h : (⟨n, M⟩ : Σ k : ℕ, Fin k → Fin k → ℤ) = ⟨_, padded c intLowest⟩
      · obtain ⟨rfl, h⟩ := Sigma.mk.inj_iff.1 h
        rw [heq_iff_eq] at h
        subst h
        exact ⟨τ, if_pos rfl⟩
      · exact ⟨1, if_neg h⟩
    · intro heq
      obtain ⟨a, ha, hf⟩ := gnn_of_cost (solve := solve) (σ := 1) hc rfl hsz
      obtain ⟨a', ha', hf'⟩ := gnn_of_cost (solve := solve') (σ := τ) hc (if_pos rfl) hsz
      rw [ha, ha'] at heq
      cases heq
      have h1 := (hf ((trackSet scores).nth ⟨0, by omega⟩) [(detSet scores).nth ⟨0, hD⟩]).2
        ⟨(⟨0, by omega⟩, ⟨0, hD⟩), by rw [mem_matchOf]; rfl, rfl, rfl⟩
      obtain ⟨p, hp, hpt, -⟩ := (hf' _ _).1 h1
      have hp0 : p.1 = ⟨0, by omega⟩ := nth_inj _ hpt
      rw [mem_matchOf, hp0] at hp
      have : τ (rowUp ⟨0, by omega⟩) = ⟨(detSet scores).size, by omega⟩ := Equiv.swap_apply_left _ _
      rw [this] at hp
      have hp2 := p.2.2
      have := congrArg Fin.val hp
      simp [colUp] at this
      omega
  have hi := i.2
  refine ⟨⟨0, by omega⟩, ⟨(detSet scores).size, by omega⟩, ?_⟩
  simp only [padded]
  rw [dif_pos ⟨by omega, hD⟩, dif_neg (by omega)]
  have := hcr ⟨i.1, by omega⟩ ⟨0, hD⟩
  unfold intLowest
  omega

/-- C70, what holds: with no more tracks than detections the associator asks the solver about
one matrix, and all differences inside its rows fit in `int` (the padding fills whole rows).

Missing: more tracks than detections, where the claim is false
(`C70_row_differences_overflow`).  What the solver does with these differences: `C117`. -/
theorem C70_row_differences_fit_partial {scores : ScoreMap} (hr : ScoresIn scores fltMaxQ)
    (hpos : (∃ k q, scores.find? k = some (.fin q) ∧ 0 < q) ∨
      (scores.entries ≠ [] ∧ ¬ Complete scores)) (hbig : scores.entries.length < 2 ^ 64)
    (hTD : trackCount scores ≤ detectionCount scores) :
    ∃ (n : ℕ) (M : Fin n → Fin n → ℤ), n = detectionCount scores ∧
      (∀ solve solve' : Solver, solve n M = solve' n M →
        gnnAssociator solve scores = gnnAssociator solve' scores) ∧
      ∀ i j j', -2 ^ 31 ≤ M i j - M i j' ∧ M i j - M i j' ≤ 2 ^ 31 - 1 := by
  obtain ⟨c, hc, hcr⟩ := gnn_asks hr hpos hbig
  rw [← trackSet_size, ← detSet_size] at hTD
  refine ⟨_, padded c intLowest, ?_, gnn_depends hc, fun i j j' => ?_⟩
  · rw [← detSet_size]; exact max_eq_right hTD
  have hj := j.2
  have hj' := j'.2
  simp only [padded]
  by_cases hi : i.1 < (trackSet scores).size
  · rw [dif_pos ⟨hi, by omega⟩, dif_pos ⟨hi, by omega⟩]
    have h1 := hcr ⟨i.1, hi⟩ ⟨j.1, by omega⟩
    have h2 := hcr ⟨i.1, hi⟩ ⟨j'.1, by omega⟩
    omega
  · rw [dif_neg (by omega), dif_neg (by omega)]
    omega

/-- C70, exactly: there is one matrix the associator depends on, of the size of the larger of the
numbers of tracks and detections, and all differences inside its rows fit in `int` exactly if
there are no more tracks than detections. -/
theorem C70_iff {scores : ScoreMap} (hr : ScoresIn scores fltMaxQ)
    (hpos : (∃ k q, scores.find? k = some (.fin q) ∧ 0 < q) ∨
      (scores.entries ≠ [] ∧ ¬ Complete scores)) (hbig : scores.entries.length < 2 ^ 64) :
    ∃ (n : ℕ) (M : Fin n → Fin n → ℤ), n = max (trackCount scores) (detectionCount scores) ∧
      (∀ solve solve' : Solver, solve n M = solve' n M →
        gnnAssociator solve scores = gnnAssociator solve' scores) ∧
      ((∀ i j j', -2 ^ 31 ≤ M i j - M i j' ∧ M i j - M i j' ≤ 2 ^ 31 - 1) ↔
        trackCount scores ≤ detectionCount scores) := by
  rcases le_or_gt (trackCount scores) (detectionCount scores) with h | h
  · obtain ⟨n, M, hn, hd, hf⟩ := C70_row_differences_fit_partial hr hpos hbig h
    exact ⟨n, M, by omega, hd, fun _ => h, fun _ => hf⟩
  · obtain ⟨n, M, hn, hd, _, ho⟩ := C70_row_differences_overflow hr hpos hbig h
    refine ⟨n, M, by omega, hd, fun hf => ?_, fun h' => absurd h' (by omega)⟩
    obtain ⟨j, j', hj⟩ := ho ⟨0, by omega⟩
    have := (hf ⟨0, by omega⟩ j j').2
    omega

/-- two tracks, one detection; one track, two detections -/
example : ScoresIn (mkScores [(1, 3, 1), (2, 3, 2)]) fltMaxQ ∧
    detectionCount (mkScores [(1, 3, 1), (2, 3, 2)]) < trackCount (mkScores [(1, 3, 1), (2, 3, 2)]) ∧
    trackCount (mkScores [(3, 1, 1), (3, 2, 2)]) ≤ detectionCount (mkScores [(3, 1, 1), (3, 2, 2)]) :=
  ⟨scoresIn_of_all (by decide +kernel), by decide +kernel, by decide +kernel⟩

end Mot.Props
