import Verif.Model.Matching
import Mathlib.Algebra.BigOperators.Group.Finset.Basic
import Mathlib.Data.Fintype.Perm
/-!
# Vocabulary for statements about track matching
-/

namespace Mot.Spec

/-- the pairs (track, detection) of an association map -/
def pairsOf (a : AssociationMap) : List (Uuid × Uuid) :=
  a.entries.flatMap fun e => e.2.map fun d => (e.1, d)

/-- a list of pairs in which no track and no detection is repeated -/
def OneToOne (l : List (Uuid × Uuid)) : Prop := (l.map (·.1)).Nodup ∧ (l.map (·.2)).Nodup

/-- `(t, d)` has an entry in the score map -/
def Scored (scores : ScoreMap) (t d : Uuid) : Prop := (scores.find? (mkPair t d)).isSome

/-- `t` occurs as a track -/
def ScoredTrack (scores : ScoreMap) (t : Uuid) : Prop := ∃ d, Scored scores t d

/-- `d` occurs as a detection -/
def ScoredDetection (scores : ScoreMap) (d : Uuid) : Prop := ∃ t, Scored scores t d

/-- distinct tracks of the score map -/
def trackCount (scores : ScoreMap) : ℕ :=
  (scores.entries.map fun e => (ofLex e.1).1).toFinset.card

/-- distinct detections of the score map -/
def detectionCount (scores : ScoreMap) : ℕ :=
  (scores.entries.map fun e => (ofLex e.1).2).toFinset.card

/-- every pair of an occurring track and an occurring detection is scored -/
def Complete (scores : ScoreMap) : Prop :=
  ∀ t d, ScoredTrack scores t → ScoredDetection scores d → Scored scores t d

/-- every score is a finite number in `[0, b]` -/
def ScoresIn (scores : ScoreMap) (b : ℚ) : Prop :=
  ∀ k s, scores.find? k = some s → ∃ q, s = .fin q ∧ 0 ≤ q ∧ q ≤ b

/-- the largest `float` -/
def fltMaxQ : ℚ := (2 ^ 24 - 1) * 2 ^ 104

/-- the finite numbers of a score matrix: the scores, and the largest `float` for pairs
without one -/
def matrixValues (scores : ScoreMap) : Set ℚ :=
  {q | (∃ k, scores.find? k = some (.fin q)) ∨ (¬ Complete scores ∧ q = fltMaxQ)}

/-- The value of the score of a pair (0 for a pair without a finite score; only used
for scored pairs). -/
def scoreVal (scores : ScoreMap) (p : Uuid × Uuid) : ℚ :=
  match scores.find? (mkPair p.1 p.2) with
  | some (.fin q) => q
  | _ => 0

/-- sum of the scores of some pairs -/
def totalScore (scores : ScoreMap) (l : List (Uuid × Uuid)) : ℚ :=
  (l.map (scoreVal scores)).sum

/-- The solver returns a permutation of the column indices. -/
def IsPermSolver (solve : Solver) : Prop :=
  ∀ n c, ∃ σ : Equiv.Perm (Fin n), solve n c = List.ofFn fun i => ((σ i).1 : ℤ)

/-- The solver returns a permutation with the largest total (documented contract of
`dlib::max_cost_assignment`). -/
def IsOptimalSolver (solve : Solver) : Prop :=
  ∀ n c, ∃ σ : Equiv.Perm (Fin n), (solve n c = List.ofFn fun i => ((σ i).1 : ℤ)) ∧
    ∀ τ : Equiv.Perm (Fin n), ∑ i, c i (τ i) ≤ ∑ i, c i (σ i)

end Mot.Spec
