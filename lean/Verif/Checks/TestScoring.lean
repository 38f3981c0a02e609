import Verif.Checks.TestStates
import Verif.Model.Scoring
import Verif.Proofs.Clustering
/-!
# The unit tests of the repository, run on the model: scoring and clustering

Tests of the model, not properties of the code; see `TestTracking.lean` and `TestStates.lean`.
-/

namespace Mot.Checks

open Real Matrix

/-! ## test/test_scoring.cpp -/

/-- `1_m, 2_m, 3_mps, Angle(3_rad), 5_rad_per_s`, test/test_scoring.cpp:45 -/
noncomputable def sV : CtrvState := ⟨1, 2, 3, Angle.ofRad 3, 5⟩
/-- test/test_scoring.cpp:48 -/
noncomputable def tV : CtrvState := ⟨6, 7, 8, Angle.ofRad 3, 10⟩
/-- test/test_scoring.cpp:71 -/
noncomputable def meanV : CtrvState := ⟨5.7441, 1.38, 2.2049, Angle.ofRad 0.5015, 0.3528⟩
/-- the state `1, 1, 1, 1, 1`, test/test_scoring.cpp:141, 151 -/
noncomputable def unitV : CtrvState := ⟨1, 1, 1, Angle.ofRad 1, 1⟩
/-- test/test_scoring.cpp:135, 138, 145, 148 -/
noncomputable def t1 : CtraState := ⟨6, 7, 8, Angle.ofRad 3, 10, 12⟩
noncomputable def t2 : CtraState := ⟨8, 2, 3, Angle.ofRad 1, 12, 11⟩
noncomputable def d1 : CtraState := ⟨1, 2, 3, Angle.ofRad 3, 5, 6⟩
noncomputable def d2 : CtraState := ⟨2, 3, 6, Angle.ofRad 2, 20, 9⟩

/-- test/test_scoring.cpp:66-68 -/
def covV : CtrvCov :=
  !![0.0043, -0.0013, 0.0030, -0.0022, -0.0020; -0.0013, 0.0077, 0.0011, 0.0071, 0.0060;
     0.0030, 0.0011, 0.0054, 0.0007, 0.0008; -0.0022, 0.0071, 0.0007, 0.0098, 0.0100;
     -0.0020, 0.0060, 0.0008, 0.0100, 0.0123]

/-- test/test_scoring.cpp:111-114 and
test/data/test_scoring_track_to_detection_scoring_mahalanobis_tracks.json -/
def covA : CtraCov :=
  !![0.0043, -0.0013, 0.0030, -0.0022, -0.0020, 0.5; -0.0013, 0.0077, 0.0011, 0.0071, 0.0060, 0.123;
     0.0030, 0.0011, 0.0054, 0.0007, 0.0008, -0.34; -0.0022, 0.0071, 0.0007, 0.0098, 0.0100, 0.009;
     -0.0020, 0.0060, 0.0008, 0.0100, 0.0123, 0.0021; 0.5, 0.123, -0.34, 0.009, 0.0021, -0.8701]

/-- the pose covariance of both -/
def poseCov : Matrix (Fin 3) (Fin 3) ℝ :=
  !![0.0043, -0.0013, -0.0022; -0.0013, 0.0077, 0.0071; -0.0022, 0.0071, 0.0098]

theorem covV_pose : CtrvCov.pose covV = poseCov := by
  ext i j; fin_cases i <;> fin_cases j <;> rfl
theorem covA_pose : CtraCov.pose covA = poseCov := by
  ext i j; fin_cases i <;> fin_cases j <;> rfl

theorem poseCov_det : IsUnit poseCov.det := by
  rw [isUnit_iff_ne_zero, poseCov, Matrix.det_fin_three]
  simp
  norm_num

/-- `√q`, enclosed between two rationals -/
theorem sqrt_near {q e t : ℚ} (h : (Ivl.pt q).isSqrt (Ivl.near e t) = true) :
    |sqrt (q : ℝ) - e| ≤ t :=
  Ivl.has_near.1 ((Ivl.has_pt q).sqrt h)

/-- `poseDistance` of poses given by their components -/
theorem poseDistance_lit (a b c a' b' c' : ℝ) {q e t : ℚ}
    (hq : (a - a') ^ 2 + (b - b') ^ 2 + (c - c') ^ 2 = q)
    (h : (Ivl.pt q).isSqrt (Ivl.near e t) = true) :
    |poseDistance ![a, b, c] ![a', b', c'] - e| ≤ t := by
  have : poseDistance ![a, b, c] ![a', b', c'] = sqrt (q : ℝ) := by
    rw [← hq]
    simp only [poseDistance, dotProduct, Fin.sum_univ_three, Pi.sub_apply]
    congr 1
    simp
    ring
  rw [this]
  exact sqrt_near h

/-- `poseMahalanobis` from the solution of a linear system -/
theorem poseMahalanobis_lit (p p' : Fin 3 → ℝ) (z : Fin 3 → ℝ) {q e t : ℚ}
    (hz : z ᵥ* poseCov = p - p') (hq : z ⬝ᵥ (p - p') = q)
    (h : (Ivl.pt q).isSqrt (Ivl.near e t) = true) (h0 : 0 ≤ q) :
    ∃ m, poseMahalanobis poseCov p p' = some m ∧ |m - e| ≤ t := by
  have hd : (p - p') ᵥ* poseCov⁻¹ = z := by
    rw [← hz, Matrix.vecMul_vecMul, Matrix.mul_nonsing_inv _ poseCov_det, Matrix.vecMul_one]
  refine ⟨sqrt (q : ℝ), ?_, sqrt_near h⟩
  unfold poseMahalanobis
  simp only [hd, hq]
  rw [if_pos ⟨poseCov_det, by rw [hd, hq]; exact_mod_cast h0⟩]

theorem get3 : (Angle.ofRad 3).getAngle = 3 := getAngle_lit (by norm_num) (by norm_num)
theorem get2 : (Angle.ofRad 2).getAngle = 2 := getAngle_lit (by norm_num) (by norm_num)
theorem get1 : (Angle.ofRad 1).getAngle = 1 := getAngle_lit (by norm_num) (by norm_num)
theorem getM : (Angle.ofRad 0.5015).getAngle = 0.5015 := getAngle_lit (by norm_num) (by norm_num)

/-- `EXPECT_FLOAT_EQ` for values between 4 and 8 -/
def ulp4 : ℚ := 4 / 2 ^ 21
/-- `EXPECT_FLOAT_EQ` for values between 64 and 128 -/
def ulp64 : ℚ := 4 / 2 ^ 17

/-- `TestScoring.CtrvEuclideanDistance`, test/test_scoring.cpp:37-53 -/
theorem Scoring_CtrvEuclideanDistance : |sV.euclid tV - (7.0710678118654755 : ℚ)| ≤ ulp4 := by
  unfold CtrvState.euclid CtrvState.pose sV tV
  simp only [get3]
  exact poseDistance_lit _ _ _ _ _ _ (q := 50) (by norm_num) (by decide +kernel)

/-- `TestScoring.CtraEuclideanDistance`, test/test_scoring.cpp:80-97 -/
theorem Scoring_CtraEuclideanDistance : |d1.euclid t1 - (7.0710678118654755 : ℚ)| ≤ ulp4 := by
  unfold CtraState.euclid CtraState.pose d1 t1
  simp only [get3]
  exact poseDistance_lit _ _ _ _ _ _ (q := 50) (by norm_num) (by decide +kernel)

/-- `TestScoring.CtrvMahalanobisDistance`, test/test_scoring.cpp:55-78 -/
theorem Scoring_CtrvMahalanobisDistance :
    ∃ m, meanV.mahalanobis covV sV = some m ∧ |m - (74.37377728947332 : ℚ)| ≤ ulp64 := by
  unfold CtrvState.mahalanobis CtrvState.pose meanV sV
  rw [covV_pose]
  simp only [get3, getM]
  refine poseMahalanobis_lit _ _ ![33787290/31499, 32344487/94497, -24770459/94497]
    (q := 1045412514677/188994000) ?_ ?_ (by decide +kernel) (by norm_num)
  · ext i; fin_cases i <;> simp [poseCov, Matrix.vecMul, dotProduct, Fin.sum_univ_three] <;> norm_num
  · simp [dotProduct, Fin.sum_univ_three]; norm_num

/-- `TestScoring.CtraMahalanobisDistance`, test/test_scoring.cpp:99-124; the expected value of
the track and detection 1 also in `TrackToDetectionScoringMahalanobis` -/
theorem Scoring_CtraMahalanobisDistance :
    ∃ m, t1.mahalanobis covA d1 = some m ∧ |m - (122.3575692494651 : ℚ)| ≤ ulp64 := by
  unfold CtraState.mahalanobis CtraState.pose t1 d1
  rw [covA_pose]
  simp only [get3]
  refine poseMahalanobis_lit _ _ ![36950000/31499, 172100000/94497, -99800000/94497]
    (q := 1414750000/94497) ?_ ?_ (by decide +kernel) (by norm_num)
  · ext i; fin_cases i <;> simp [poseCov, Matrix.vecMul, dotProduct, Fin.sum_univ_three] <;> norm_num
  · simp [dotProduct, Fin.sum_univ_three]; norm_num

/-- the other values of `TrackToDetectionScoringMahalanobis`, test/test_scoring.cpp:230-233 -/
theorem mahalanobis_values :
    (∃ m, t1.mahalanobis covA d2 = some m ∧ |m - (90.688416 : ℚ)| ≤ ulp64) ∧
    (∃ m, t2.mahalanobis covA d1 = some m ∧ |m - (109.70312 : ℚ)| ≤ ulp64) ∧
    (∃ m, t2.mahalanobis covA d2 = some m ∧ |m - (95.243896 : ℚ)| ≤ ulp64) ∧
    unitV.mahalanobis covV unitV = some 0 := by
  unfold CtraState.mahalanobis CtraState.pose t1 t2 d1 d2
  rw [covA_pose]
  simp only [get3, get2, get1]
  refine ⟨?_, ?_, ?_, ?_⟩
  · refine poseMahalanobis_lit _ _ ![32130000/31499, 36670000/31499, -16140000/31499]
      (q := 259060000/31499) ?_ ?_ (by decide +kernel) (by norm_num)
    · ext i; fin_cases i <;> simp [poseCov, Matrix.vecMul, dotProduct, Fin.sum_univ_three] <;> norm_num
    · simp [dotProduct, Fin.sum_univ_three]; norm_num
  · refine poseMahalanobis_lit _ _ ![53310000/31499, 35180000/94497, -8870000/94497]
      (q := 1137250000/94497) ?_ ?_ (by decide +kernel) (by norm_num)
    · ext i; fin_cases i <;> simp [poseCov, Matrix.vecMul, dotProduct, Fin.sum_univ_three] <;> norm_num
    · simp [dotProduct, Fin.sum_univ_three]; norm_num
  · refine poseMahalanobis_lit _ _ ![3730000/2423, -690000/2423, 1090000/2423]
      (q := 21980000/2423) ?_ ?_ (by decide +kernel) (by norm_num)
    · ext i; fin_cases i <;> simp [poseCov, Matrix.vecMul, dotProduct, Fin.sum_univ_three] <;> norm_num
    · simp [dotProduct, Fin.sum_univ_three]; norm_num
  · unfold CtrvState.mahalanobis
    rw [covV_pose]
    simp [poseMahalanobis, poseCov_det.ne_zero]

/-- the values of `TrackToDetectionScoringEuclidean`, test/test_scoring.cpp:157-161 -/
theorem euclid_values :
    |t1.euclid d1 - (7.0710678 : ℚ)| ≤ ulp4 ∧ |t1.euclid d2 - (5.7445626 : ℚ)| ≤ ulp4 ∧
    |t2.euclid d1 - (7.2801099 : ℚ)| ≤ ulp4 ∧ |t2.euclid d2 - (6.1644139 : ℚ)| ≤ ulp4 ∧
    unitV.euclid unitV = 0 := by
  unfold CtraState.euclid CtraState.pose t1 t2 d1 d2
  simp only [get3, get2, get1]
  refine ⟨poseDistance_lit _ _ _ _ _ _ (q := 50) (by norm_num) (by decide +kernel),
    poseDistance_lit _ _ _ _ _ _ (q := 33) (by norm_num) (by decide +kernel),
    poseDistance_lit _ _ _ _ _ _ (q := 53) (by norm_num) (by decide +kernel),
    poseDistance_lit _ _ _ _ _ _ (q := 38) (by norm_num) (by decide +kernel), ?_⟩
  simp [CtrvState.euclid, poseDistance]

section
variable {α : Type}

/-- the tracks and detections of `TrackToDetectionScoring…`, test/test_scoring.cpp:133-151 -/
noncomputable def scTracks : List (Obj2 CtrvState CtrvCov CtraState CtraCov) :=
  [.inr ⟨0, t1, covA, uuid "test_track1", .unknown⟩, .inr ⟨0, t2, covA, uuid "test_track2", .unknown⟩,
   .inl ⟨0, unitV, covV, uuid "test_track3", .unknown⟩]
noncomputable def scDetections : List (Obj2 CtrvState CtrvCov CtraState CtraCov) :=
  [.inr ⟨0, d1, 0, uuid "test_detection1", .unknown⟩, .inr ⟨0, d2, 0, uuid "test_detection2", .unknown⟩,
   .inl ⟨0, unitV, 0, uuid "test_detection3", .unknown⟩]

theorem sc_order :
    mkPair (uuid "test_track1") (uuid "test_detection1") < mkPair (uuid "test_track1") (uuid "test_detection2") ∧
    mkPair (uuid "test_track1") (uuid "test_detection2") < mkPair (uuid "test_track2") (uuid "test_detection1") ∧
    mkPair (uuid "test_track2") (uuid "test_detection1") < mkPair (uuid "test_track2") (uuid "test_detection2") ∧
    mkPair (uuid "test_track2") (uuid "test_detection2") < mkPair (uuid "test_track3") (uuid "test_detection3") := by
  decide +kernel

theorem set_back {K V : Type} [LinearOrder K] (k : K) (v : V) :
    ∀ l : List (K × V), (∀ e ∈ l, e.1 < k) → AList.set k v l = l ++ [(k, v)]
  | [], _ => rfl
  | e :: l, h => by
    have h1 := h e (by simp)
    rw [AList.set, if_neg (not_lt.2 h1.le), if_neg h1.ne', set_back k v l fun e he => h e (by simp [he])]
    rfl

/-- the pairs scored, for any two distance functions -/
theorem sc_entries (f : DynObj CtrvState CtrvCov → DynObj CtrvState CtrvCov → α)
    (g : DynObj CtraState CtraCov → DynObj CtraState CtraCov → α) :
    (scoreTracksAndDetections scTracks scDetections (scoreVariant f g)).entries =
      [(mkPair (uuid "test_track1") (uuid "test_detection1"),
          g ⟨0, t1, covA, uuid "test_track1", .unknown⟩ ⟨0, d1, 0, uuid "test_detection1", .unknown⟩),
       (mkPair (uuid "test_track1") (uuid "test_detection2"),
          g ⟨0, t1, covA, uuid "test_track1", .unknown⟩ ⟨0, d2, 0, uuid "test_detection2", .unknown⟩),
       (mkPair (uuid "test_track2") (uuid "test_detection1"),
          g ⟨0, t2, covA, uuid "test_track2", .unknown⟩ ⟨0, d1, 0, uuid "test_detection1", .unknown⟩),
       (mkPair (uuid "test_track2") (uuid "test_detection2"),
          g ⟨0, t2, covA, uuid "test_track2", .unknown⟩ ⟨0, d2, 0, uuid "test_detection2", .unknown⟩),
       (mkPair (uuid "test_track3") (uuid "test_detection3"),
          f ⟨0, unitV, covV, uuid "test_track3", .unknown⟩ ⟨0, unitV, 0, uuid "test_detection3", .unknown⟩)] := by
  obtain ⟨h1, h2, h3, h4⟩ := sc_order
  simp only [scTracks, scDetections, scoreTracksAndDetections, List.foldl, scoreRow, scoreVariant,
    TrackOps.uuid, SMap.set, SMap.empty]
  generalize mkPair (uuid "test_track1") (uuid "test_detection1") = k1 at *
  generalize mkPair (uuid "test_track1") (uuid "test_detection2") = k2 at *
  generalize mkPair (uuid "test_track2") (uuid "test_detection1") = k3 at *
  generalize mkPair (uuid "test_track2") (uuid "test_detection2") = k4 at *
  generalize mkPair (uuid "test_track3") (uuid "test_detection3") = k5 at *
  have h13 := h1.trans h2
  have h14 := h13.trans h3
  have h15 := h14.trans h4
  have h24 := h2.trans h3
  have h25 := h24.trans h4
  have h35 := h3.trans h4
  rw [set_back k1 _ [] (by simp)]
  rw [set_back k2 _ _ (by simp [h1])]
  rw [set_back k3 _ _ (by simp [h2, h13])]
  rw [set_back k4 _ _ (by simp [h3, h24, h14])]
  rw [set_back k5 _ _ (by simp [h4, h35, h25, h15])]
  rfl

end

/-- `TestScoring.TrackToDetectionScoringEuclidean`, test/test_scoring.cpp:126-169 -/
theorem Scoring_TrackToDetectionScoringEuclidean :
    (scoreTracksAndDetections scTracks scDetections
      (euclideanScore CtrvState.euclid CtraState.euclid)).entries =
      [(mkPair (uuid "test_track1") (uuid "test_detection1"), t1.euclid d1),
       (mkPair (uuid "test_track1") (uuid "test_detection2"), t1.euclid d2),
       (mkPair (uuid "test_track2") (uuid "test_detection1"), t2.euclid d1),
       (mkPair (uuid "test_track2") (uuid "test_detection2"), t2.euclid d2),
       (mkPair (uuid "test_track3") (uuid "test_detection3"), unitV.euclid unitV)] ∧
    |t1.euclid d1 - (7.0710678 : ℚ)| ≤ ulp4 ∧ |t1.euclid d2 - (5.7445626 : ℚ)| ≤ ulp4 ∧
    |t2.euclid d1 - (7.2801099 : ℚ)| ≤ ulp4 ∧ |t2.euclid d2 - (6.1644139 : ℚ)| ≤ ulp4 ∧
    unitV.euclid unitV = 0 :=
  ⟨sc_entries _ _, euclid_values⟩

/-- `TestScoring.TrackToDetectionScoringMahalanobis`, test/test_scoring.cpp:171-241 -/
theorem Scoring_TrackToDetectionScoringMahalanobis :
    ∃ m11 m12 m21 m22 : ℝ, (scoreTracksAndDetections scTracks scDetections
      (mahalanobisScore CtrvState.mahalanobis CtraState.mahalanobis)).entries =
      [(mkPair (uuid "test_track1") (uuid "test_detection1"), some m11),
       (mkPair (uuid "test_track1") (uuid "test_detection2"), some m12),
       (mkPair (uuid "test_track2") (uuid "test_detection1"), some m21),
       (mkPair (uuid "test_track2") (uuid "test_detection2"), some m22),
       (mkPair (uuid "test_track3") (uuid "test_detection3"), some 0)] ∧
    |m11 - (122.3575692494651 : ℚ)| ≤ ulp64 ∧ |m12 - (90.688416 : ℚ)| ≤ ulp64 ∧
    |m21 - (109.70312 : ℚ)| ≤ ulp64 ∧ |m22 - (95.243896 : ℚ)| ≤ ulp64 := by
  obtain ⟨m11, e11, h11⟩ := Scoring_CtraMahalanobisDistance
  obtain ⟨⟨m12, e12, h12⟩, ⟨m21, e21, h21⟩, ⟨m22, e22, h22⟩, e33⟩ := mahalanobis_values
  refine ⟨m11, m12, m21, m22, ?_, h11, h12, h21, h22⟩
  unfold mahalanobisScore
  rw [sc_entries]
  simp only [e11, e12, e21, e22, e33]

/-! ## test/test_clustering.cpp -/

/-- a detection at rest at `(x, y)` -/
noncomputable def still (x y : ℝ) (u : String) : DynObj CtrvState CtrvCov :=
  ⟨0, ⟨x, y, 0, Angle.ofRad 0, 0⟩, 0, uuid u, .unknown⟩

theorem still_dist (x y x' y' : ℝ) (u u' : String) :
    Clusterable.sqDist (ClusterableOf.makePoint (still x y u)) (still x' y' u') =
      (x - x') ^ 2 + (y - y') ^ 2 := by
  simp [Clusterable.sqDist, ClusterableOf.makePoint, still]

/-- `TestCluster.Empty`, test/test_clustering.cpp:11-17 -/
theorem Cluster_Empty :
    (ClusterOf.new : Cluster (DynObj CtraState CtraCov)).isEmpty = true ∧
    (ClusterOf.new : Cluster (DynObj CtraState CtraCov)).centroid = .throw .runtimeError :=
  ⟨rfl, rfl⟩

/-- `CtrvDetection` with default members, `position_x` set -/
noncomputable def det (x : ℝ) (u : Uuid) : DynObj CtrvState CtrvCov :=
  ⟨0, ⟨x, 0, 0, Angle.ofRad 0, 0⟩, 0, u, .unknown⟩

/-- clusters built by adding detections -/
noncomputable def built (l : List (ℝ × Uuid)) : Cluster (DynObj CtrvState CtrvCov) :=
  l.foldl (fun c e => c.add (det e.1 e.2)) ClusterOf.new

/-- the comparisons of `TestCluser.Simple` -/
def CentroidAt (r : Outcome Point) (x : ℝ) : Prop :=
  ∃ p, r = .ok p ∧ p.x = x ∧ p.y = 0 ∧ p.v = 0 ∧ p.yaw.getAngle = 0 ∧ p.yawRate = 0

theorem zero_add_zero : (Angle.ofRad 0).add (Angle.ofRad 0) = Angle.ofRad 0 := by
  unfold Angle.add
  rw [getAngle_ofRad_zero]
  rw [add_zero]
  rfl

theorem zero_sub_zero : (Angle.ofRad 0).sub (Angle.ofRad 0) = Angle.ofRad 0 := by
  unfold Angle.sub
  rw [getAngle_ofRad_zero]
  rw [sub_zero]
  rfl

theorem zero_divide (r : ℝ) : ((Angle.ofRad 0).divide r).getAngle = 0 := by
  unfold Angle.divide
  rw [getAngle_ofRad_zero]
  rw [zero_div]
  exact getAngle_ofRad_zero

/-- `TestCluser.Simple`, test/test_clustering.cpp:19-70 -/
theorem Clustering_Simple :
    CentroidAt (built [(1, uuid "detection1")]).centroid 1 ∧
    CentroidAt (built [(1, uuid "detection1"), (3, uuid "detection2")]).centroid 2 ∧
    CentroidAt (built [(1, uuid "detection1"), (3, uuid "detection2"), (5, uuid "detection3")]).centroid 3 ∧
    CentroidAt (ClusterOf.remove (uuid "detection3")
      (built [(1, uuid "detection1"), (3, uuid "detection2"), (5, uuid "detection3")])).1.centroid 2 := by
  have n12 : uuid "detection1" ≠ uuid "detection2" := by decide +kernel
  have n13 : uuid "detection1" ≠ uuid "detection3" := by decide +kernel
  have n23 : uuid "detection2" ≠ uuid "detection3" := by decide +kernel
  unfold built det
  generalize uuid "detection1" = u1 at *
  generalize uuid "detection2" = u2 at *
  generalize uuid "detection3" = u3 at *
  refine ⟨?_, ?_, ?_, ?_⟩ <;>
  simp [CentroidAt, ClusterOf.centroid, ClusterOf.add, ClusterOf.remove, ClusterOf.new,
    ClusterableOf.addTo, ClusterableOf.subFrom, ClusterableOf.uuid, UMap.emplace, UMap.find?, AList.find?,
    UMap.set, UMap.empty, UMap.erase, PointOps.zero, PointOps.divideBy, Point.zero, Point.divide,
    zero_add_zero, zero_sub_zero, zero_divide, n12, n13, n23] <;> norm_num

/-- the number of clusters of two detections -/
theorem clusters_two (a b : DynObj CtrvState CtrvCov) (th : ℝ) :
    (clusterDetectionsDefault [a, b] th).length =
      if Clusterable.sqDist (ClusterableOf.makePoint b) a < th then 1 else 2 := by
  unfold clusterDetectionsDefault
  rw [show [a, b] = [a] ++ [b] from rfl, clusterDetections_concat]
  by_cases h : Clusterable.sqDist (ClusterableOf.makePoint b) a < th
  · simp [h, clusterDetections_nil]
  · have := clusterDetections_concat (fun p d => decide (Clusterable.sqDist p d < th)) [] a
    simp only [List.nil_append] at this
    simp [h, this, clusterDetections_nil]

/-- `TestClustering.Disjoint`, test/test_clustering.cpp:72-81 -/
theorem Clustering_Disjoint :
    (clusterDetectionsDefault [still 5 5 "detection1", still 6 5 "detection2"] 1).length = 2 ∧
    (clusterDetectionsDefault [still 5 5 "detection1", still 6 5 "detection2"] 3).length = 1 := by
  constructor <;> rw [clusters_two, still_dist] <;> norm_num

/-- `TestClustering.Overlapping`, test/test_clustering.cpp:83-92 -/
theorem Clustering_Overlapping :
    (clusterDetectionsDefault [still 5 5 "detection1", still 5 5 "detection2"] 1).length = 1 ∧
    (clusterDetectionsDefault [still 5 5 "detection1", still 5 5 "detection2"] 3).length = 1 := by
  constructor <;> rw [clusters_two, still_dist] <;> norm_num

end Mot.Checks
