import Verif.Spec.Matching
import Verif.Model.Motion
import Verif.Model.Json
import Mathlib.Tactic.FinCases
import Mathlib.Tactic.NormNum
/-!
# The unit tests of the repository, run on the model: track management, gating, matching

These are tests of the model, not properties of the code: each theorem states that the model
behaves as the unit test it is named after expects.  A wrong reading of the C++ code would show
here.  dlib's solver is any solver meeting its contract.
-/

namespace Mot.Checks

open Spec

/-- `mot::Uuid{"…"}` -/
def uuid (s : String) : Uuid := ⟨Json.lit s⟩

/-! ## test/test_track_management.cpp -/

section
variable {S C : Type}

/-- sizes of the tentative, the confirmed and all tracks -/
def sizes (m : Manager (DynObj S C)) : Outcome (ℕ × ℕ × ℕ) :=
  m.getTentativeTracks.bind fun a => m.getConfirmedTracks.bind fun b =>
    .ok (a.length, b.length, m.getAllTracks.length)

/-- `association_map[Uuid{"test_track"}].push_back(Uuid{"test_detection"})`,
test/test_track_management.cpp:36-37 -/
def testAssociations : AssociationMap := pushBack .empty (uuid "test_track") (uuid "test_detection")

/-- a track with the given UUID -/
def testTrack (t : ℝ) (s : S) (c : C) (k : SemanticClass) : DynObj S C := ⟨t, s, c, uuid "test_track", k⟩

/-- a manager holding the one track `t` under `u` -/
def one (p r : BitVec 64) (u : Uuid) (t : DynObj S C) (st : TrackStatus) (n : BitVec 64) :
    Manager (DynObj S C) :=
  ⟨p, r, ⟨[(u, t)], by simp⟩, ⟨[(u, st)], by simp⟩, ⟨[(u, n)], by simp⟩⟩

theorem one_tentative (p r : BitVec 64) (u : Uuid) (t : DynObj S C) (n : BitVec 64) :
    sizes (one p r u t .tentative n) = .ok (1, 0, 1) := by
  simp [sizes, one, Manager.getTentativeTracks, Manager.getConfirmedTracks, Manager.collect,
    UMap.find?, AList.find?, Manager.getAllTracks, Outcome.bind]

theorem one_confirmed (p r : BitVec 64) (u : Uuid) (t : DynObj S C) (n : BitVec 64) :
    sizes (one p r u t .confirmed n) = .ok (0, 1, 1) := by
  simp [sizes, one, Manager.getTentativeTracks, Manager.getConfirmedTracks, Manager.collect,
    UMap.find?, AList.find?, Manager.getAllTracks, Outcome.bind]

theorem add_one (p r : BitVec 64) (t : DynObj S C) :
    (Manager.addTentativeTrack t (.new p r)).1 = one p r t.uuid t .tentative 1 := rfl

theorem update_one (a : AssociationMap) (p r : BitVec 64) (u : Uuid) (t : DynObj S C)
    (st : TrackStatus) (n n' : BitVec 64)
    (hn : n' = if a.count u = 0 then n - 1 else Manager.stdMin (n + 1) p) :
    (Manager.updateTrackLists a (one p r u t st n)).1 =
      if n' ≤ r then ⟨p, r, .empty, .empty, .empty⟩
      else if p ≤ n' then one p r u t .confirmed n' else one p r u t st n' := by
  subst hn
  simp only [Manager.updateTrackLists, Manager.countAssociations, one, UMap.mapVals, List.map_cons,
    List.map_nil, Act.forEach, Manager.sweepEntry, ge_iff_le]
  split_ifs <;> simp_all [UMap.erase, UMap.empty, UMap.find?, AList.find?, UMap.replace]

theorem sizes_empty (p r : BitVec 64) :
    sizes (⟨p, r, .empty, .empty, .empty⟩ : Manager (DynObj S C)) = .ok (0, 0, 0) := rfl

theorem count_test : testAssociations.count (uuid "test_track") = 1 := by decide +kernel

theorem count_none : (SMap.empty : AssociationMap).count (uuid "test_track") = 0 := rfl

theorem setPromotion_one (q p r : BitVec 64) (u : Uuid) (t : DynObj S C) (st : TrackStatus)
    (n : BitVec 64) : (one p r u t st n).setPromotion q =
      if q ≤ n then one q r u t .confirmed n else one q r u t .tentative n := by
  simp only [Manager.setPromotion, one, List.foldl_cons, List.foldl_nil, Manager.reclassify,
    Manager.indexOrInsert, UMap.find?, AList.find?, if_true, ge_iff_le]
  split_ifs <;> simp_all [UMap.set, UMap.find?, AList.find?, UMap.replace]

theorem setRemoval_one (q p r : BitVec 64) (u : Uuid) (t : DynObj S C) (st : TrackStatus)
    (n : BitVec 64) : (one p r u t st n).setRemoval q =
      if n ≤ q then ⟨p, q, .empty, .empty, .empty⟩ else one p q u t st n := by
  simp only [Manager.setRemoval, one, List.foldl_cons, List.foldl_nil, Manager.pruneEntry]
  split_ifs <;> simp_all [UMap.erase, UMap.empty]

/-- `TestTrackManagement.Simple`, test/test_track_management.cpp:28-69: the sizes after the
calls, in the order of the expectations -/
theorem TrackManagement_Simple (t : ℝ) (s : S) (c : C) (k : SemanticClass) :
    let m₁ := (Manager.addTentativeTrack (testTrack t s c k) (.new 3 1)).1
    let m₂ := (Manager.updateTrackLists testAssociations m₁).1
    let m₃ := (Manager.updateTrackLists testAssociations m₂).1
    let m₄ := (Manager.updateTrackLists .empty m₃).1
    let m₅ := (Manager.updateTrackLists .empty (Manager.updateTrackLists .empty m₄).1).1
    sizes m₁ = .ok (1, 0, 1) ∧ sizes m₂ = .ok (1, 0, 1) ∧ sizes m₃ = .ok (0, 1, 1) ∧
      sizes m₄ = .ok (0, 1, 1) ∧ sizes m₅ = .ok (0, 0, 0) := by
  intro m₁ m₂ m₃ m₄ m₅
  have h₁ : m₁ = one 3 1 (uuid "test_track") (testTrack t s c k) .tentative 1 := rfl
  have h₂ : m₂ = one 3 1 (uuid "test_track") (testTrack t s c k) .tentative 2 := by
    show (Manager.updateTrackLists testAssociations m₁).1 = _
    rw [h₁, update_one _ _ _ _ _ _ _ 2 (by rw [count_test]; rfl)]; rfl
  have h₃ : m₃ = one 3 1 (uuid "test_track") (testTrack t s c k) .confirmed 3 := by
    show (Manager.updateTrackLists testAssociations m₂).1 = _
    rw [h₂, update_one _ _ _ _ _ _ _ 3 (by rw [count_test]; rfl)]; rfl
  have h₄ : m₄ = one 3 1 (uuid "test_track") (testTrack t s c k) .confirmed 2 := by
    show (Manager.updateTrackLists .empty m₃).1 = _
    rw [h₃, update_one _ _ _ _ _ _ _ 2 (by rw [count_none]; rfl)]; rfl
  have h₅ : m₅ = ⟨3, 1, .empty, .empty, .empty⟩ := by
    show (Manager.updateTrackLists .empty (Manager.updateTrackLists .empty m₄).1).1 = _
    rw [h₄, update_one _ _ _ _ _ _ _ 1 (by rw [count_none]; rfl)]; rfl
  rw [h₁, h₂, h₃, h₄, h₅]
  exact ⟨one_tentative .., one_tentative .., one_confirmed .., one_confirmed .., sizes_empty ..⟩

/-- `TestTrackManagement.Getters`, test/test_track_management.cpp:71-78 -/
theorem TrackManagement_Getters :
    (Manager.new 3 1 : Manager (DynObj S C)).promo = 3 ∧
    (Manager.new 3 1 : Manager (DynObj S C)).removal = 1 := ⟨rfl, rfl⟩

/-- `TestTrackManagement.Setters`, test/test_track_management.cpp:80-122 -/
theorem TrackManagement_Setters (t : ℝ) (s : S) (c : C) (k : SemanticClass) :
    let m₁ := (Manager.addTentativeTrack (testTrack t s c k) (.new 3 1)).1
    let m₂ := (Manager.updateTrackLists testAssociations m₁).1
    let m₃ := (Manager.updateTrackLists testAssociations m₂).1.setPromotion 1
    let m₄ := m₃.setPromotion 10
    let m₅ := m₄.setRemoval 5
    sizes m₁ = .ok (1, 0, 1) ∧ sizes m₂ = .ok (1, 0, 1) ∧ sizes m₃ = .ok (0, 1, 1) ∧
      sizes m₄ = .ok (1, 0, 1) ∧ sizes m₅ = .ok (0, 0, 0) := by
  intro m₁ m₂ m₃ m₄ m₅
  have h₁ : m₁ = one 3 1 (uuid "test_track") (testTrack t s c k) .tentative 1 := rfl
  have h₂ : m₂ = one 3 1 (uuid "test_track") (testTrack t s c k) .tentative 2 := by
    show (Manager.updateTrackLists testAssociations m₁).1 = _
    rw [h₁, update_one _ _ _ _ _ _ _ 2 (by rw [count_test]; rfl)]; rfl
  have h₃ : m₃ = one 1 1 (uuid "test_track") (testTrack t s c k) .confirmed 3 := by
    show (Manager.updateTrackLists testAssociations m₂).1.setPromotion 1 = _
    rw [h₂, update_one _ _ _ _ _ _ _ 3 (by rw [count_test]; rfl)]
    exact (setPromotion_one 1 3 1 _ _ .confirmed 3).trans (if_pos (by decide))
  have h₄ : m₄ = one 10 1 (uuid "test_track") (testTrack t s c k) .tentative 3 := by
    show m₃.setPromotion 10 = _
    rw [h₃, setPromotion_one, if_neg (by decide)]
  have h₅ : m₅ = ⟨10, 5, .empty, .empty, .empty⟩ := by
    show m₄.setRemoval 5 = _
    rw [h₄, setRemoval_one, if_pos (by decide)]
  rw [h₁, h₂, h₃, h₄, h₅]
  exact ⟨one_tentative .., one_tentative .., one_confirmed .., one_tentative .., sizes_empty ..⟩

/-- `TestTrackManagement.UpdateTrack`, test/test_track_management.cpp:124-155, for any new state
and covariance -/
theorem TrackManagement_UpdateTrack (s s' : S) (c c' : C) (k : SemanticClass) :
    let m := (Manager.addTentativeTrack (testTrack 0 s c k) (.new 3 0)).1
    let r := Manager.updateTrack (uuid "test_track") 1 s' c' m
    r.2 = .ok () ∧ r.1.getAllTracks = [⟨1, s', c', uuid "test_track", k⟩] := ⟨rfl, rfl⟩

end

/-! ## test/test_gating.cpp -/

/-- a score map, built like its initialiser list: the first entry of a key counts -/
def scoreMap (l : List (String × String × ℚ)) : ScoreMap :=
  l.reverse.foldl (fun m e => m.set (mkPair (uuid e.1) (uuid e.2.1)) (.fin e.2.2)) .empty

/-- `TestGating.TestPruning`, test/test_gating.cpp:29-48 -/
theorem Gating_TestPruning :
    (pruneScoresIf (scoreMap [("track1", "detection1", 10), ("track2", "detection2", 20),
        ("track3", "detection3", 30)]) (fun s => FP.gt s (.fin 25))).entries =
      (scoreMap [("track1", "detection1", 10), ("track2", "detection2", 20)]).entries := by
  decide +kernel

/-! ## test/test_track_matching.cpp -/

/-- the square cost matrix handed to the solver, track_matching.hpp:236-248 -/
def squareCosts (scores : ScoreMap) : Outcome (DMat ℤ) :=
  (costMatrix (scoreMatrix scores .empty .empty).1).bind fun cm =>
    readAll (makeSquareMatrix cm intLowest)

/-- what follows the call of the solver, track_matching.hpp:250-256 -/
def afterSolver (scores : ScoreMap) (results : List ℤ) : Outcome AssociationMap :=
  let sm := scoreMatrix scores .empty .empty
  if results.length < sm.2.1.size then .ub .oobRead
  else associationMap (results.take sm.2.1.size) sm.2.1 sm.2.2

theorem gnn_stages (solve : Solver) (scores : ScoreMap) : gnnAssociator solve scores =
    (squareCosts scores).bind fun sq =>
      (maxCostAssignment solve sq).bind (afterSolver scores) := by
  unfold gnnAssociator squareCosts afterSolver
  simp only
  cases costMatrix (scoreMatrix scores .empty .empty).1 <;> rfl

/-- every optimal assignment leads to the expected associations -/
def leadsTo (scores : ScoreMap) (expected : List (Uuid × List Uuid)) : Bool :=
  match squareCosts scores with
  | .ok sq => if h : sq.nc = sq.nr then
      decide (∀ σ : Equiv.Perm (Fin sq.nr),
        (∀ τ : Equiv.Perm (Fin sq.nr),
          ∑ i, sq.get i (Fin.cast h.symm (τ i)) ≤ ∑ i, sq.get i (Fin.cast h.symm (σ i))) →
        (match afterSolver scores (List.ofFn fun i => ((σ i).1 : ℤ)) with
          | .ok a => decide (a.entries = expected)
          | _ => false) = true)
    else false
  | _ => false

theorem gnn_leadsTo {scores : ScoreMap} {expected : List (Uuid × List Uuid)}
    (h : leadsTo scores expected = true) {solve : Solver} (hs : IsOptimalSolver solve) :
    ∃ a, associateDetectionsToTracks (gnnAssociator solve) scores = .ok a ∧ a.entries = expected := by
  unfold associateDetectionsToTracks
  rw [gnn_stages]
  unfold leadsTo at h
  cases hq : squareCosts scores with
  | throw e => rw [hq] at h; simp at h
  | ub w => rw [hq] at h; simp at h
  | ok sq =>
    rw [hq] at h
    simp only at h
    split_ifs at h with hn
    rw [decide_eq_true_eq] at h
    obtain ⟨σ, hσ, hopt⟩ := hs sq.nr (fun i j => sq.get i (Fin.cast hn.symm j))
    have := h σ hopt
    simp only [Outcome.bind, maxCostAssignment, hn, dite_true]
    rw [hσ]
    cases ha : afterSolver scores (List.ofFn fun i => ((σ i).1 : ℤ)) with
    | throw e => rw [ha] at this; simp at this
    | ub w => rw [ha] at this; simp at this
    | ok a =>
      rw [ha] at this
      exact ⟨a, rfl, by simpa using this⟩

/-- `TestTrackMatching.VerifyLibraryInstallation`, test/test_track_matching.cpp:34-62: the
contract assumed of the solver determines the assignment -/
theorem TrackMatching_VerifyLibraryInstallation {solve : Solver} (hs : IsOptimalSolver solve) :
    solve 3 !![1, 2, 6; 5, 3, 6; 4, 5, 0] = [2, 0, 1] := by
  obtain ⟨σ, hσ, hopt⟩ := hs 3 !![1, 2, 6; 5, 3, 6; 4, 5, 0]
  rw [hσ]
  clear hσ hs
  revert hopt
  revert σ
  decide +kernel

/-- `TestTrackMatching.GnnAssociator`, test/test_track_matching.cpp:67-111 -/
theorem TrackMatching_GnnAssociator {solve : Solver} (hs : IsOptimalSolver solve) :
    ∃ a, associateDetectionsToTracks (gnnAssociator solve) (scoreMap [
        ("track1", "detection1", 10), ("track1", "detection2", 2), ("track1", "detection3", 1),
        ("track2", "detection1", 2), ("track2", "detection2", 1), ("track2", "detection3", 10),
        ("track3", "detection1", 3), ("track3", "detection2", 10), ("track3", "detection3", 5)]) =
          .ok a ∧
      a.entries = [(uuid "track1", [uuid "detection3"]), (uuid "track2", [uuid "detection2"]),
        (uuid "track3", [uuid "detection1"])] :=
  gnn_leadsTo (by decide +kernel) hs

/-- `TestTrackMatching.GnnAssociatorWithGatedScores`, test/test_track_matching.cpp:116-154 -/
theorem TrackMatching_GnnAssociatorWithGatedScores {solve : Solver} (hs : IsOptimalSolver solve) :
    ∃ a, associateDetectionsToTracks (gnnAssociator solve) (scoreMap [
        ("track1", "detection3", 1), ("track2", "detection2", 1), ("track3", "detection1", 1)]) =
          .ok a ∧
      a.entries = [(uuid "track1", [uuid "detection3"]), (uuid "track2", [uuid "detection2"]),
        (uuid "track3", [uuid "detection1"])] :=
  gnn_leadsTo (by decide +kernel) hs

/-- `TestTrackMatching.GnnAssociatorMoreDetectionsThanTracks`, test/test_track_matching.cpp:156-184 -/
theorem TrackMatching_MoreDetectionsThanTracks {solve : Solver} (hs : IsOptimalSolver solve) :
    ∃ a, associateDetectionsToTracks (gnnAssociator solve) (scoreMap [
        ("track1", "detection1", 10), ("track1", "detection2", 2)]) = .ok a ∧
      a.entries = [(uuid "track1", [uuid "detection2"])] :=
  gnn_leadsTo (by decide +kernel) hs

/-- `TestTrackMatching.GnnAssociatorMoreTracksThanDetections`, test/test_track_matching.cpp:186-214 -/
theorem TrackMatching_MoreTracksThanDetections {solve : Solver} (hs : IsOptimalSolver solve) :
    ∃ a, associateDetectionsToTracks (gnnAssociator solve) (scoreMap [
        ("track1", "detection1", 10), ("track2", "detection1", 2)]) = .ok a ∧
      a.entries = [(uuid "track2", [uuid "detection1"])] :=
  gnn_leadsTo (by decide +kernel) hs

end Mot.Checks
