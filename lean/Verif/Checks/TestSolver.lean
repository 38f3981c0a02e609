import Verif.Checks.TestTracking
import Verif.Model.Solver
import Mathlib.LinearAlgebra.Matrix.Notation

/-!
# The repository's tests of the associator with the modelled solver

`Verif/Checks/TestTracking.lean` runs these tests with every solver that meets the contract; here
they run with the procedure of `Verif/Model/Solver.lean`, in `int` as far as nothing overflows.
-/

namespace Mot.Checks

open Mot Mot.Spec

/-- the entries of the association, if there is one -/
def entries? (x : Outcome AssociationMap) : Option (List (Uuid × List Uuid)) :=
  match x with
  | .ok a => some a.entries
  | _ => none

/-- `TestTrackMatching.VerifyLibraryInstallation`, test/test_track_matching.cpp:34-62 -/
theorem Solver_VerifyLibraryInstallation :
    kmAssignment int32 3 3 !![1, 2, 6; 5, 3, 6; 4, 5, 0] = .ok [2, 0, 1] := by decide +kernel

/-- `TestTrackMatching.GnnAssociator`, test/test_track_matching.cpp:67-111 -/
theorem Solver_GnnAssociator :
    entries? (gnnAssociatorKm int32 3 (scoreMap [
        ("track1", "detection1", 10), ("track1", "detection2", 2), ("track1", "detection3", 1),
        ("track2", "detection1", 2), ("track2", "detection2", 1), ("track2", "detection3", 10),
        ("track3", "detection1", 3), ("track3", "detection2", 10), ("track3", "detection3", 5)])) =
      some [(uuid "track1", [uuid "detection3"]), (uuid "track2", [uuid "detection2"]),
        (uuid "track3", [uuid "detection1"])] := by decide +kernel

/-- `TestTrackMatching.GnnAssociatorWithGatedScores`, test/test_track_matching.cpp:116-154 -/
theorem Solver_GnnAssociatorWithGatedScores :
    entries? (gnnAssociatorKm int32 3 (scoreMap [
        ("track1", "detection3", 1), ("track2", "detection2", 1), ("track3", "detection1", 1)])) =
      some [(uuid "track1", [uuid "detection3"]), (uuid "track2", [uuid "detection2"]),
        (uuid "track3", [uuid "detection1"])] := by decide +kernel

/-- `TestTrackMatching.GnnAssociatorMoreDetectionsThanTracks`, test/test_track_matching.cpp:156-184 -/
theorem Solver_MoreDetectionsThanTracks :
    entries? (gnnAssociatorKm int32 2 (scoreMap [
        ("track1", "detection1", 10), ("track1", "detection2", 2)])) =
      some [(uuid "track1", [uuid "detection2"])] := by decide +kernel

/-- `TestTrackMatching.GnnAssociatorMoreTracksThanDetections`, test/test_track_matching.cpp:186-214:
the test passes where overflow wraps around, although it runs into it -/
theorem Solver_MoreTracksThanDetections :
    entries? (gnnAssociatorKm wrap32 2 (scoreMap [
        ("track1", "detection1", 10), ("track2", "detection1", 2)])) =
      some [(uuid "track2", [uuid "detection1"])] ∧
    (match gnnAssociatorKm int32 2 (scoreMap [
        ("track1", "detection1", 10), ("track2", "detection1", 2)]) with
      | .ub .intOverflow => true
      | _ => false) = true := by
  constructor <;> decide +kernel

end Mot.Checks
