import Verif.Model.Scoring
import Verif.Model.TrackManager
import Verif.Model.Float
import Mathlib.Data.Fintype.Basic
import Mathlib.Data.Fin.Basic
/-!
# Track matching (track_matching.hpp, detail/dlib_extensions.hpp)
-/

namespace Mot

/-- `ScoreMap`, scoring.hpp:90 -/
abbrev ScoreMap := ScoreMapOf FP

/-! ## HasAssociation -/

/-- `HasAssociation`, track_matching.hpp:45-77; the two hash sets are modelled as lists
of inserted UUIDs (only membership is used). -/
structure HasAssociation where
  associatedTracks : List Uuid
  associatedDetections : List Uuid

namespace HasAssociation

/-- constructor, track_matching.hpp:48-54 -/
def new (a : AssociationMap) : HasAssociation :=
  a.entries.foldl (fun h e =>
    ⟨e.1 :: h.associatedTracks, e.2 ++ h.associatedDetections⟩) ⟨[], []⟩

/-- call operator for tracks, track_matching.hpp:56-60 -/
def track {τ S C : Type} [TrackOps τ S C] (h : HasAssociation) (t : τ) : Bool :=
  decide (TrackOps.uuid t ∈ h.associatedTracks)

/-- call operator for detections, track_matching.hpp:62-66 -/
def detection {τ S C : Type} [TrackOps τ S C] (h : HasAssociation) (d : τ) : Bool :=
  decide (TrackOps.uuid d ∈ h.associatedDetections)

end HasAssociation

/-! ## Matrices -/

/-- `dlib::matrix<α>` -/
structure DMat (α : Type) where
  nr : ℕ
  nc : ℕ
  get : Fin nr → Fin nc → α

/-- Nested loops `for row in [r0, r1) for col in [c0, c1): m(row, col) = f(row, col)`;
`none` stands for an element that has not been initialised. -/
def DMat.fill {α : Type} (m : DMat (Option α)) (r0 r1 c0 c1 : ℕ) (f : ℕ → ℕ → Option α) :
    DMat (Option α) :=
  ⟨m.nr, m.nc, fun i j =>
    if r0 ≤ i.1 ∧ i.1 < r1 ∧ c0 ≤ j.1 ∧ j.1 < c1 then f i.1 j.1 else m.get i j⟩

/-- element access by natural-number indices; `none` outside -/
def DMat.get? {α : Type} (m : DMat α) (i j : ℕ) : Option α :=
  if h : i < m.nr ∧ j < m.nc then some (m.get ⟨i, h.1⟩ ⟨j, h.2⟩) else none

/-- `make_square_matrix`, dlib_extensions.hpp:17-48 -/
def makeSquareMatrix {α : Type} (m : DMat α) (pad : α) : DMat (Option α) :=
  let n := max m.nr m.nc
  let sq : DMat (Option α) := ⟨n, n, fun _ _ => none⟩
  let sq := sq.fill 0 m.nr 0 m.nc (fun i j => m.get? i j)
  if m.nr > m.nc then
    sq.fill 0 n m.nc n (fun _ _ => some pad)
  else
    sq.fill m.nr n 0 n (fun _ _ => some pad)

/-! ## Scores to costs -/

/-- The two sets filled by `score_matrix_from_score_map`, track_matching.hpp:94-98. -/
def collectUuids (scores : ScoreMap) (ts ds : SSet Uuid) : SSet Uuid × SSet Uuid :=
  scores.entries.foldl (fun p e => (p.1.insert (ofLex e.1).1, p.2.insert (ofLex e.1).2)) (ts, ds)

/-- `*std::next(s.begin(), i)` for `i < s.size()` -/
def SSet.nth (s : SSet Uuid) (i : Fin s.size) : Uuid := s.elems.get i

/-- `score_matrix_from_score_map`, track_matching.hpp:87-126; returns the updated sets
as well -/
def scoreMatrix (scores : ScoreMap) (ts ds : SSet Uuid) : DMat FP × SSet Uuid × SSet Uuid :=
  let p := collectUuids scores ts ds
  (⟨p.1.size, p.2.size, fun r c =>
      match scores.find? (mkPair (p.1.nth r) (p.2.nth c)) with
      | some s => s
      | none => FP.fltMax⟩, p.1, p.2)

/-- all elements in row-major order -/
def DMat.toList {α : Type} (m : DMat α) : List α :=
  (List.finRange m.nr).flatMap fun i => (List.finRange m.nc).map fun j => m.get i j

/-- `dlib::max`: starts with element (0,0) and replaces it by larger ones; reads outside
the matrix when it is empty. -/
def dlibMax (m : DMat FP) : Outcome FP :=
  match m.toList with
  | [] => .ub .emptyMax
  | a :: l => .ok ((a :: l).foldl (fun v t => if FP.gt t v then t else v) a)

/-- cost of one score, track_matching.hpp:150-156: float division, double subtraction,
conversion to float, float multiplication, truncation to int -/
def costOf (maxScore s : FP) : Outcome ℤ :=
  let normalized := FP.div binary32 s maxScore
  let cost := FP.conv binary32 (FP.sub binary64 (.fin 1) normalized)
  FP.toInt (FP.mul binary32 cost (.fin 100000000))

/-- Evaluate a matrix of calls in row-major order. -/
def DMat.sequence {α : Type} [Inhabited α] (m : DMat (Outcome α)) : Outcome (DMat α) :=
  match Outcome.mapM' id m.toList with
  | .throw e => .throw e
  | .ub w => .ub w
  | .ok _ => .ok ⟨m.nr, m.nc, fun i j => match m.get i j with
    | .ok a => a
    | _ => default⟩

/-- `cost_matrix_from_score_matrix`, track_matching.hpp:134-166 -/
def costMatrix (m : DMat FP) : Outcome (DMat ℤ) :=
  match dlibMax m with
  | .throw e => .throw e
  | .ub w => .ub w
  | .ok maxScore => DMat.sequence ⟨m.nr, m.nc, fun i j => costOf maxScore (m.get i j)⟩

/-! ## Assignments -/

/-- `get_element_at`, track_matching.hpp:176-190; `index` is a `size_t` -/
def getElementAt (s : SSet Uuid) (index : ℕ) : Outcome Uuid :=
  match s.elems[index]? with
  | some u => .ok u
  | none => .throw .outOfRange

/-- `associations[track].push_back(detection)` -/
def pushBack (a : AssociationMap) (t d : Uuid) : AssociationMap :=
  a.set t (((a.find? t).getD []) ++ [d])

/-- loop of `association_map_from_score_map`, track_matching.hpp:209-223; `i` is the loop
counter.  The comparison `assignments[i] >= std::size(detection_set)` converts the
`long` to `size_t`, so negative values are skipped. -/
def assocLoop (ts ds : SSet Uuid) : ℕ → List ℤ → AssociationMap → Outcome AssociationMap
  | _, [], a => .ok a
  | i, x :: xs, a =>
    if (BitVec.ofInt 64 x).toNat ≥ ds.size then assocLoop ts ds (i + 1) xs a
    else match getElementAt ts i with
      | .throw e => .throw e
      | .ub w => .ub w
      | .ok t => match getElementAt ds (BitVec.ofInt 64 x).toNat with
        | .throw e => .throw e
        | .ub w => .ub w
        | .ok d => assocLoop ts ds (i + 1) xs (pushBack a t d)

/-- `association_map_from_score_map`, track_matching.hpp:201-226 (the score map argument
is not used by the code) -/
def associationMap (assignments : List ℤ) (ts ds : SSet Uuid) : Outcome AssociationMap :=
  assocLoop ts ds 0 assignments SMap.empty

/-- `dlib::max_cost_assignment`: maps a square integer matrix to a vector of column
indices.  External code; theorems assume `IsPermSolver` or `IsOptimalSolver`. -/
abbrev Solver := (n : ℕ) → (Fin n → Fin n → ℤ) → List ℤ

/-- `std::numeric_limits<int>::lowest()` -/
def intLowest : ℤ := -2 ^ 31

/-- reading every element of a matrix that may have uninitialised elements -/
def readAll {α : Type} [Inhabited α] (m : DMat (Option α)) : Outcome (DMat α) :=
  DMat.sequence ⟨m.nr, m.nc, fun i j => match m.get i j with
    | some a => .ok a
    | none => .ub .uninitRead⟩

/-- `max_cost_assignment(cost)`; the matrix must be square -/
def maxCostAssignment (solve : Solver) (m : DMat ℤ) : Outcome (List ℤ) :=
  if h : m.nc = m.nr then .ok (solve m.nr (fun i j => m.get i (Fin.cast h.symm j)))
  else .ub .sizeMismatch

/-- `gnn_associator`, track_matching.hpp:234-257 -/
def gnnAssociator (solve : Solver) (scores : ScoreMap) : Outcome AssociationMap :=
  let sm := scoreMatrix scores .empty .empty
  let ts := sm.2.1
  let ds := sm.2.2
  (costMatrix sm.1).bind fun cm =>
  (readAll (makeSquareMatrix cm intLowest)).bind fun sq =>
  (maxCostAssignment solve sq).bind fun results =>
  if results.length < ts.size then .ub .oobRead
  else associationMap (results.take ts.size) ts ds

/-- `associate_detections_to_tracks` with `gnn_association_visitor`,
track_matching.hpp:291-309: visits a one-alternative variant, i.e. just calls the
associator. -/
def associateDetectionsToTracks (visitor : ScoreMap → Outcome AssociationMap)
    (scores : ScoreMap) : Outcome AssociationMap := visitor scores

end Mot
