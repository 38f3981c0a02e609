import Verif.Proofs.Identity
import Verif.Props.FloatPose
import Mathlib.Analysis.InnerProductSpace.PiL2
/-!
# Errors of scores and positions (C120)
-/

namespace Mot.Props

open Mot Spec

/-- total of a real-valued distance -/
noncomputable def totalOf (dist : Uuid → Uuid → ℝ) (l : List (Uuid × Uuid)) : ℝ :=
  (l.map fun x => dist x.1 x.2).sum

private theorem total_close {scores : ScoreMap} {dist : Uuid → Uuid → ℝ} {ε : ℝ} {l : List (Uuid × Uuid)}
    (h : ∀ x ∈ l, |(scoreVal scores x : ℝ) - dist x.1 x.2| ≤ ε) :
    |(totalScore scores l : ℝ) - totalOf dist l| ≤ l.length * ε := by
  induction l with
  | nil => simp [totalScore, totalOf]
  | cons x l ih =>
    have h1 := h x (by simp)
    have h2 := ih fun y hy => h y (by simp [hy])
    unfold totalScore totalOf at h2 ⊢
    rw [List.map_cons, List.map_cons, List.sum_cons, List.sum_cons, List.length_cons]
    push_cast at h2 ⊢
    rw [abs_le] at h1 h2 ⊢
    constructor <;> nlinarith

/-- C120: if every score differs from the true distance by at most `ε`, then the true distances of the
returned association total at most `2 ε + 22 m / 10^8` per pair more than those of any other one-to-one choice of
the same size. -/
theorem C120_distances {solve : Solver} (hs : IsOptimalSolver solve) {scores : ScoreMap}
    (hbig : scores.entries.length < 2 ^ 64) (hc : Complete scores) {m : ℚ} (hm : ScoresIn scores m)
    (hmf : m ≤ fltMaxQ) {dist : Uuid → Uuid → ℝ} {ε : ℝ}
    (hε : ∀ t d, Scored scores t d → |(scoreVal scores (t, d) : ℝ) - dist t d| ≤ ε)
    {a : AssociationMap} (h : gnnAssociator solve scores = .ok a)
    {l : List (Uuid × Uuid)} (hl : OneToOne l) (hscored : ∀ x ∈ l, Scored scores x.1 x.2)
    (hlen : l.length = (pairsOf a).length) :
    totalOf dist (pairsOf a) ≤ totalOf dist l + (pairsOf a).length * (2 * ε + 22 * m / 100000000) := by
  obtain ⟨-, -, -, hsc⟩ := C19_one_to_one hs.perm hbig h
  have hne : scores.entries ≠ [] := by
    intro h0
    have : scores = SMap.empty := by
      cases scores
      cases h0
      rfl
    rw [this, C23_empty_is_ub] at h
    cases h
  obtain ⟨m', hle, hm', k, hk⟩ := exists_maxScore hne hm
  have h1 := C21_near_optimal hs hbig hc hm' (hle.trans hmf) ⟨k, hk⟩ h hl hscored hlen
  have h2 := total_close (dist := dist) (l := pairsOf a) (scores := scores) (ε := ε) fun x hx =>
    hε x.1 x.2 (hc _ _ (hsc x hx).1 (hsc x hx).2)
  have h3 := total_close (dist := dist) (l := l) (scores := scores) (ε := ε) fun x hx =>
    hε x.1 x.2 (hscored x hx)
  rw [hlen] at h3
  rw [abs_le] at h2 h3
  have h4 : (totalScore scores (pairsOf a) : ℝ) ≤
      totalScore scores l + 22 * (pairsOf a).length * m' / 100000000 := by exact_mod_cast h1
  have h5 : (m' : ℝ) ≤ m := by exact_mod_cast hle
  have h6 : 22 * ((pairsOf a).length : ℝ) * m' / 100000000 ≤ (pairsOf a).length * (22 * m / 100000000) := by
    have := mul_le_mul_of_nonneg_left h5 (Nat.cast_nonneg (α := ℝ) (pairsOf a).length)
    linarith
  linarith [h2.1, h2.2, h3.1, h3.2]

/-- C120: if one choice is better than all others by more than that, every optimal solver returns it, whatever the
errors. -/
theorem C120_determined {solve : Solver} (hs : IsOptimalSolver solve) {scores : ScoreMap}
    (hbig : scores.entries.length < 2 ^ 64) (hc : Complete scores) {m : ℚ} (hm : ScoresIn scores m)
    (hmf : m ≤ fltMaxQ) {dist : Uuid → Uuid → ℝ} {ε : ℝ}
    (hε : ∀ t d, Scored scores t d → |(scoreVal scores (t, d) : ℝ) - dist t d| ≤ ε)
    {a : AssociationMap} (h : gnnAssociator solve scores = .ok a)
    {best : List (Uuid × Uuid)} (hb : OneToOne best) (hscored : ∀ x ∈ best, Scored scores x.1 x.2)
    (hlen : best.length = min (trackCount scores) (detectionCount scores))
    (hbest : ∀ l, OneToOne l → (∀ x ∈ l, Scored scores x.1 x.2) → l.length = best.length → ¬ l.Perm best →
      totalOf dist best + best.length * (2 * ε + 22 * m / 100000000) < totalOf dist l) :
    (∀ u v, a.find? u = some [v] ↔ (u, v) ∈ best) ∧ ∀ u l, a.find? u = some l → ∃ v, l = [v] := by
  obtain ⟨hone, -, h1, hsc⟩ := C19_one_to_one hs.perm hbig h
  have hk := (C20_card hs.perm hbig h).1
  have hperm : (pairsOf a).Perm best := by
    by_contra hn
    have h2 := hbest _ h1 (fun x hx => hc _ _ (hsc x hx).1 (hsc x hx).2) (hk.trans hlen.symm) hn
    have h3 := C120_distances hs hbig hc hm hmf hε h hb hscored (hlen.trans hk.symm)
    rw [hk, ← hlen] at h3
    linarith
  refine ⟨fun u v => ?_, hone⟩
  rw [← hperm.mem_iff, mem_pairsOf_iff]
  constructor
  · intro hf
    exact ⟨_, hf, by simp⟩
  · rintro ⟨us, hf, hv⟩
    obtain ⟨w, rfl⟩ := hone u us hf
    rw [hf, List.mem_singleton.1 hv]

/-- complete 2x2 score map: 1 on the diagonal and a little more elsewhere -/
def near22 : ScoreMap :=
  mkScores [(1, 7, 1), (1, 8, 1 + 1 / 2 ^ 20), (2, 7, 1 + 1 / 2 ^ 20), (2, 8, 1)]

private theorem near22_scored {x : Uuid × Uuid} (h1 : ScoredTrack near22 x.1)
    (h2 : ScoredDetection near22 x.2) :
    x = (⟨[1]⟩, ⟨[7]⟩) ∨ x = (⟨[1]⟩, ⟨[8]⟩) ∨ x = (⟨[2]⟩, ⟨[7]⟩) ∨ x = (⟨[2]⟩, ⟨[8]⟩) := by
  obtain ⟨d, h1⟩ := h1
  obtain ⟨t, h2⟩ := h2
  obtain ⟨s, h1⟩ := scored_iff_mem.1 h1
  obtain ⟨s', h2⟩ := scored_iff_mem.1 h2
  have key : ∀ e ∈ near22.entries, ∀ f ∈ near22.entries,
      ((ofLex e.1).1, (ofLex f.1).2) ∈ [((⟨[1]⟩ : Uuid), (⟨[7]⟩ : Uuid)), (⟨[1]⟩, ⟨[8]⟩),
        (⟨[2]⟩, ⟨[7]⟩), (⟨[2]⟩, ⟨[8]⟩)] := by decide +kernel
  have := key _ h1 _ h2
  simpa using this

private theorem near22_diag {solve : Solver} (hs : IsOptimalSolver solve) :
    Complete near22 ∧ ScoresIn near22 (1 + 1 / 2 ^ 20) ∧ ∃ a, gnnAssociator solve near22 = .ok a ∧
      (pairsOf a).Perm [(⟨[1]⟩, ⟨[7]⟩), (⟨[2]⟩, ⟨[8]⟩)] := by
  have hc : Complete near22 := complete_of_all (by decide +kernel)
  have hr : ScoresIn near22 (1 + 1 / 2 ^ 20) := scoresIn_of_all (by decide +kernel)
  have hbig : near22.entries.length < 2 ^ 64 := by decide +kernel
  have hm1 : (1 + 1 / 2 ^ 20 : ℚ) ≤ fltMaxQ := by unfold fltMaxQ; norm_num
  have hmax : near22.find? (mkPair ⟨[1]⟩ ⟨[8]⟩) = some (.fin (1 + 1 / 2 ^ 20)) := by decide +kernel
  obtain ⟨a, ha⟩ := C23_returns_partial hs.perm near22 hbig
    (fun k s hk => by obtain ⟨q, h1, h2, h3⟩ := hr k s hk; exact ⟨q, h1, h2, h3.trans hm1⟩)
    (.inl ⟨_, _, hmax, by norm_num⟩)
  refine ⟨hc, hr, a, ha, ?_⟩
  have hlen : (pairsOf a).length = 2 := by
    rw [(C20_card hs.perm hbig ha).1]; decide +kernel
  obtain ⟨_, _, hone, hmem⟩ := C19_one_to_one hs.perm hbig ha
  have hnear := C21_near_optimal hs hbig hc hr hm1 ⟨_, hmax⟩ ha
    (l := [(⟨[1]⟩, ⟨[7]⟩), (⟨[2]⟩, ⟨[8]⟩)]) (by unfold OneToOne; decide +kernel) (by decide +kernel) (by rw [hlen]; rfl)
  rw [hlen] at hnear
  obtain ⟨x, y, hxy⟩ := List.length_eq_two.1 hlen
  rw [hxy] at hone hmem hnear ⊢
  have hx := hmem x (by simp)
  have hy := hmem y (by simp)
  have hx := near22_scored hx.1 hx.2
  have hy := near22_scored hy.1 hy.2
  clear hxy hmem
  rcases hx with rfl | rfl | rfl | rfl <;> rcases hy with rfl | rfl | rfl | rfl <;>
    first
    | (exfalso; revert hone; unfold OneToOne; decide +kernel)
    | (exfalso; revert hnear; decide +kernel)
    | decide +kernel

/-- C120: the factor two is needed.  For the scores of `near22` and every error bound `ε ≥ 0` there are distances that
differ from the scores by at most `ε`, for which the association that every optimal solver returns is worse by
`2 ε - 10^-6` per pair than the other one. -/
theorem C120_factor_two {solve : Solver} (hs : IsOptimalSolver solve) {ε : ℝ} (hε : 0 ≤ ε) :
    ∃ (dist : Uuid → Uuid → ℝ) (a : AssociationMap) (l : List (Uuid × Uuid)),
      (∀ t d, Scored near22 t d → |(scoreVal near22 (t, d) : ℝ) - dist t d| ≤ ε) ∧
      gnnAssociator solve near22 = .ok a ∧ OneToOne l ∧ (∀ x ∈ l, Scored near22 x.1 x.2) ∧
      l.length = (pairsOf a).length ∧
      totalOf dist l + (pairsOf a).length * (2 * ε - 1 / 1000000) ≤ totalOf dist (pairsOf a) := by
  obtain ⟨-, -, a, ha, hp⟩ := near22_diag hs
  have hne : (⟨[1]⟩ : Uuid) ≠ ⟨[2]⟩ := by decide +kernel
  have hne' : (⟨[8]⟩ : Uuid) ≠ ⟨[7]⟩ := by decide +kernel
  have hv : scoreVal near22 (⟨[1]⟩, ⟨[7]⟩) = 1 ∧ scoreVal near22 (⟨[1]⟩, ⟨[8]⟩) = 1 + 1 / 2 ^ 20 ∧
      scoreVal near22 (⟨[2]⟩, ⟨[7]⟩) = 1 + 1 / 2 ^ 20 ∧ scoreVal near22 (⟨[2]⟩, ⟨[8]⟩) = 1 := by
    decide +kernel
  let dist : Uuid → Uuid → ℝ := fun t d =>
    if (t, d) = (⟨[1]⟩, ⟨[7]⟩) ∨ (t, d) = (⟨[2]⟩, ⟨[8]⟩) then 1 + ε else 1 + 1 / 2 ^ 20 - ε
  have d1 : dist ⟨[1]⟩ ⟨[7]⟩ = 1 + ε := if_pos (.inl rfl)
  have d2 : dist ⟨[2]⟩ ⟨[8]⟩ = 1 + ε := if_pos (.inr rfl)
  have d3 : dist ⟨[1]⟩ ⟨[8]⟩ = 1 + 1 / 2 ^ 20 - ε := if_neg (by simp [hne, hne'])
  have d4 : dist ⟨[2]⟩ ⟨[7]⟩ = 1 + 1 / 2 ^ 20 - ε := if_neg (by simp [hne.symm, hne'.symm])
  refine ⟨dist, a, [(⟨[1]⟩, ⟨[8]⟩), (⟨[2]⟩, ⟨[7]⟩)], ?_, ha, by unfold OneToOne; decide +kernel,
    by decide +kernel, by rw [hp.length_eq]; rfl, ?_⟩
  · intro t d htd
    rcases near22_scored (x := (t, d)) ⟨d, htd⟩ ⟨t, htd⟩ with h | h | h | h <;> cases h
    · rw [hv.1, d1]
      push_cast
      rw [abs_le]; constructor <;> linarith
    · rw [hv.2.1, d3]
      push_cast
      rw [abs_le]; constructor <;> linarith
    · rw [hv.2.2.1, d4]
      push_cast
      rw [abs_le]; constructor <;> linarith
    · rw [hv.2.2.2, d2]
      push_cast
      rw [abs_le]; constructor <;> linarith
  · have h1 : totalOf dist (pairsOf a) = totalOf dist [(⟨[1]⟩, ⟨[7]⟩), (⟨[2]⟩, ⟨[8]⟩)] :=
      (hp.map _).sum_eq
    rw [h1, hp.length_eq]
    simp only [totalOf, List.map_cons, List.map_nil, List.sum_cons, List.sum_nil, List.length_cons,
      List.length_nil, d1, d2, d3, d4]
    norm_num
    linarith

/-- `C120_determined` for distances close to the scores of `near22` -/
example {solve : Solver} (hs : IsOptimalSolver solve) {dist : Uuid → Uuid → ℝ}
    (hd : ∀ t d, Scored near22 t d → |(scoreVal near22 (t, d) : ℝ) - dist t d| ≤ 1 / 10 ^ 8) :
    ∃ a, gnnAssociator solve near22 = .ok a ∧ a.find? ⟨[1]⟩ = some [⟨[7]⟩] ∧ a.find? ⟨[2]⟩ = some [⟨[8]⟩] := by
  obtain ⟨hc, hr, a, ha, -⟩ := near22_diag hs
  have hbig : near22.entries.length < 2 ^ 64 := by decide +kernel
  have hm1 : (1 + 1 / 2 ^ 20 : ℚ) ≤ fltMaxQ := by unfold fltMaxQ; norm_num
  have hv : scoreVal near22 (⟨[1]⟩, ⟨[7]⟩) = 1 ∧ scoreVal near22 (⟨[1]⟩, ⟨[8]⟩) = 1 + 1 / 2 ^ 20 ∧
      scoreVal near22 (⟨[2]⟩, ⟨[7]⟩) = 1 + 1 / 2 ^ 20 ∧ scoreVal near22 (⟨[2]⟩, ⟨[8]⟩) = 1 := by
    decide +kernel
  have e1 := hd ⟨[1]⟩ ⟨[7]⟩ (by decide +kernel)
  have e2 := hd ⟨[1]⟩ ⟨[8]⟩ (by decide +kernel)
  have e3 := hd ⟨[2]⟩ ⟨[7]⟩ (by decide +kernel)
  have e4 := hd ⟨[2]⟩ ⟨[8]⟩ (by decide +kernel)
  rw [hv.1] at e1
  rw [hv.2.1] at e2
  rw [hv.2.2.1] at e3
  rw [hv.2.2.2] at e4
  obtain ⟨h1, -⟩ := C120_determined hs hbig hc hr hm1 hd ha (best := [(⟨[1]⟩, ⟨[7]⟩), (⟨[2]⟩, ⟨[8]⟩)])
    (by unfold OneToOne; decide +kernel) (by decide +kernel) (by decide +kernel) (by
      intro l hl hsc hlen hn
      obtain ⟨x, y, rfl⟩ := List.length_eq_two.1 hlen
      have hx := hsc x (by simp)
      have hy := hsc y (by simp)
      have hx := near22_scored ⟨_, hx⟩ ⟨_, hx⟩
      have hy := near22_scored ⟨_, hy⟩ ⟨_, hy⟩
      clear hsc hlen
      rcases hx with rfl | rfl | rfl | rfl <;> rcases hy with rfl | rfl | rfl | rfl <;>
        first
        | (exfalso; revert hl; unfold OneToOne; decide +kernel)
        | (exfalso; revert hn; decide +kernel)
        | (simp only [totalOf, List.map_cons, List.map_nil, List.sum_cons, List.sum_nil, List.length_cons,
             List.length_nil]
           push_cast at e1 e2 e3 e4 ⊢
           rw [abs_le] at e1 e2 e3 e4
           norm_num at e1 e2 e3 e4 ⊢
           linarith [e1.1, e1.2, e2.1, e2.2, e3.1, e3.2, e4.1, e4.2]))
  exact ⟨a, ha, (h1 _ _).2 (by simp), (h1 _ _).2 (by simp)⟩

/-- distance of two poses -/
noncomputable def poseDist (a b : Fin 3 → ℝ) : ℝ := √((a 0 - b 0) ^ 2 + (a 1 - b 1) ^ 2 + (a 2 - b 2) ^ 2)

private theorem poseDist_eq (a b : Fin 3 → ℝ) : poseDist a b = dist (WithLp.toLp 2 a) (WithLp.toLp 2 b) := by
  rw [EuclideanSpace.dist_eq, Fin.sum_univ_three]
  simp only [Real.dist_eq, sq_abs]
  rfl

private theorem exactDist_eq (a b : Fin 3 → ℚ) :
    exactDist a b = poseDist (fun i => (a i : ℝ)) fun i => (b i : ℝ) := rfl

private theorem poseDist_move {a b a' b' : Fin 3 → ℝ} {e : ℝ} (ha : poseDist a a' ≤ e) (hb : poseDist b b' ≤ e) :
    |poseDist a b - poseDist a' b'| ≤ 2 * e := by
  rw [poseDist_eq] at ha hb
  rw [poseDist_eq, poseDist_eq, ← Real.dist_eq]
  have := dist_dist_dist_le (WithLp.toLp 2 a) (WithLp.toLp 2 b) (WithLp.toLp 2 a') (WithLp.toLp 2 b')
  linarith

private theorem exactDist_le {M : ℚ} {a b : Fin 3 → ℚ} (ha : ∀ i, |a i| ≤ M) (hb : ∀ i, |b i| ≤ M) :
    exactDist a b ≤ 4 * M := by
  have hM : (0 : ℝ) ≤ M := by exact_mod_cast (abs_nonneg _).trans (ha 0)
  have key : ∀ i, ((a i : ℝ) - b i) ^ 2 ≤ 4 * (M : ℝ) ^ 2 := by
    intro i
    have h1 : |(a i : ℝ)| ≤ M := by exact_mod_cast ha i
    have h2 : |(b i : ℝ)| ≤ M := by exact_mod_cast hb i
    rw [abs_le] at h1 h2
    have : ((a i : ℝ) - b i) ^ 2 ≤ (2 * (M : ℝ)) ^ 2 := sq_le_sq' (by linarith [h1.1, h2.2]) (by linarith [h1.2, h2.1])
    linarith
  unfold exactDist
  rw [Real.sqrt_le_left (by linarith)]
  nlinarith [key 0, key 1, key 2]

section
variable {S₁ C₁ S₂ C₂ : Type}

/-- C120 for measured positions: all objects have the same motion model, the Euclidean score is computed in `float`,
and every measured pose is at most `e` away from where the object really is.  Then the real distances of the
association total at most `4 e + M / 10^5` per pair more than those of any other one-to-one choice of the same
size. -/
theorem C120_positions {solve : Solver} (hs : IsOptimalSolver solve) (pose₁ : S₁ → FPose) (pose₂ : S₂ → FPose)
    {ts ds : List (Obj2 S₁ C₁ S₂ C₂)} (hT : (ts.map TrackOps.uuid).Nodup) (hD : (ds.map TrackOps.uuid).Nodup)
    (hbig : ts.length * ds.length < 2 ^ 64) (hmodel : ∀ t ∈ ts, ∀ d ∈ ds, t.isLeft = d.isLeft)
    {M : ℚ} (hM : 1 ≤ M) (hM' : M ≤ 2 ^ 60) {pos : Obj2 S₁ C₁ S₂ C₂ → Fin 3 → ℚ}
    (hp : ∀ o ∈ ts ++ ds, poseOf pose₁ pose₂ o = finPose (pos o) ∧ ∀ i, |pos o i| ≤ M)
    {track detection : Uuid → Fin 3 → ℝ} {e : ℝ}
    (het : ∀ t ∈ ts, poseDist (fun i => (pos t i : ℝ)) (track (TrackOps.uuid t)) ≤ e)
    (hed : ∀ d ∈ ds, poseDist (fun i => (pos d i : ℝ)) (detection (TrackOps.uuid d)) ≤ e)
    {a : AssociationMap} (h : associateStep solve (euclidMetric pose₁ pose₂) (fun _ => false) ts ds = .ok a)
    {l : List (Uuid × Uuid)} (hl : OneToOne l)
    (hmem : ∀ x ∈ l, x.1 ∈ ts.map TrackOps.uuid ∧ x.2 ∈ ds.map TrackOps.uuid)
    (hlen : l.length = (pairsOf a).length) :
    totalOf (fun u v => poseDist (track u) (detection v)) (pairsOf a) ≤
      totalOf (fun u v => poseDist (track u) (detection v)) l + (pairsOf a).length * (4 * e + M / 100000) := by
  set scores := pruneScoresIf (scoreTracksAndDetections ts ds (euclidMetric pose₁ pose₂)) (fun _ => false) with hsc
  have hM0 : (1 : ℝ) ≤ M := by exact_mod_cast hM
  have hlen64 : scores.entries.length < 2 ^ 64 :=
    lt_of_le_of_lt ((prune_length_le _ _).trans (score_length_le _ _ _)) hbig
  have hmet : ∀ t ∈ ts, ∀ d ∈ ds, ∃ r : ℚ, Survives (euclidMetric pose₁ pose₂) (fun _ => false) t d (.fin r) ∧ 0 ≤ r ∧
      |(r : ℝ) - exactDist (pos t) (pos d)| ≤ 9 * M / 2 ^ 22 ∧ exactDist (pos t) (pos d) ≤ 4 * M := by
    intro t ht d hd
    obtain ⟨hpt, hbt⟩ := hp t (List.mem_append_left _ ht)
    obtain ⟨hpd, hbd⟩ := hp d (List.mem_append_right _ hd)
    obtain ⟨r, hr, herr⟩ := C85_accuracy M hM hM' (pos t) (pos d) hbt hbd
    have hle := exactDist_le hbt hbd
    have h0 : 0 ≤ r := by
      rcases C85_range (finPose (pos t)) (finPose (pos d)) with h | h | ⟨q, h, h0, -⟩
      · rw [hr] at h; cases h
      · rw [hr] at h; cases h
      · rw [hr] at h; cases h; exact h0
    refine ⟨r, ⟨?_, rfl⟩, h0, ?_, hle⟩
    · have hk := hmodel t ht d hd
      rw [← hr, ← hpt, ← hpd]
      rcases t with t | t <;> rcases d with d | d <;> first | rfl | cases hk
    · refine herr.trans ?_
      norm_num
      linarith
  have hpres : ∀ {u v}, Scored scores u v → ∃ t ∈ ts, ∃ d ∈ ds, TrackOps.uuid t = u ∧ TrackOps.uuid d = v := by
    intro u v h
    obtain ⟨t, ht, d, hd, h1, h2, -⟩ := scored_present h
    exact ⟨t, ht, d, hd, h1, h2⟩
  have hscored : ∀ {t d}, t ∈ ts → d ∈ ds → Scored scores (TrackOps.uuid t) (TrackOps.uuid d) := by
    intro t d ht hd
    obtain ⟨q, hq, -⟩ := hmet t ht d hd
    exact Option.isSome_iff_exists.2 ⟨_, (find?_survives hT hD ht hd _).2 hq⟩
  have hin : ScoresIn scores (5 * M) := by
    intro k s hk
    obtain ⟨t, ht, d, hd, -, hsv⟩ := find?_survives' hT hD hk
    obtain ⟨q, hq, h0, h1, h2⟩ := hmet t ht d hd
    have := hsv.1.symm.trans hq.1
    cases this
    refine ⟨q, rfl, h0, ?_⟩
    have h3 := (abs_le.1 h1).2
    have : (q : ℝ) ≤ 5 * M := by
      norm_num at h3
      linarith
    exact_mod_cast this
  have hcomp : Complete scores := by
    rintro u v ⟨v', h1⟩ ⟨u', h2⟩
    obtain ⟨t, ht, -, -, rfl, -⟩ := hpres h1
    obtain ⟨-, -, d, hd, -, rfl⟩ := hpres h2
    exact hscored ht hd
  have hclose : ∀ u v, Scored scores u v →
      |(scoreVal scores (u, v) : ℝ) - poseDist (track u) (detection v)| ≤ 2 * e + 9 * M / 2 ^ 22 := by
    intro u v huv
    obtain ⟨t, ht, d, hd, rfl, rfl⟩ := hpres huv
    obtain ⟨q, hq, -, h1, -⟩ := hmet t ht d hd
    have hv : scoreVal scores (TrackOps.uuid t, TrackOps.uuid d) = q := by
      unfold scoreVal
      rw [(find?_survives hT hD ht hd _).2 hq]
    have h2 := poseDist_move (het t ht) (hed d hd)
    rw [exactDist_eq] at h1
    rw [hv]
    rw [abs_le] at h1 h2 ⊢
    constructor <;> linarith [h1.1, h1.2, h2.1, h2.2]
  have hle : 5 * M ≤ fltMaxQ := by
    unfold fltMaxQ
    norm_num at hM' ⊢
    linarith
  refine (C120_distances hs hlen64 hcomp hin hle hclose h hl ?_ hlen).trans ?_
  · intro x hx
    obtain ⟨h1, h2⟩ := hmem x hx
    obtain ⟨t, ht, e1⟩ := List.mem_map.1 h1
    obtain ⟨d, hd, e2⟩ := List.mem_map.1 h2
    rw [← e1, ← e2]
    exact hscored ht hd
  · have hk : (0 : ℝ) ≤ (pairsOf a).length := Nat.cast_nonneg _
    have : 2 * (2 * e + 9 * (M : ℝ) / 2 ^ 22) + 22 * ((5 * M : ℚ) : ℝ) / 100000000 ≤ 4 * e + M / 100000 := by
      push_cast
      norm_num
      linarith
    have := mul_le_mul_of_nonneg_left this hk
    linarith

end

/-- where the objects of the example below are measured -/
private def posX (o : Obj2 ℚ Unit ℚ Unit) : Fin 3 → ℚ := ![o.elim (·.state) (·.state), 0, 0]

/-- `C120_positions` for two tracks and two detections on a line that were measured with errors up to 10 cm: wherever
the objects really are, the association is at most 80.02 cm worse than pairing the detection at 1 m with the track
at the origin and the one at 9 m with the track at 10 m -/
example {solve : Solver} (hs : IsOptimalSolver solve) :
    ∃ a, associateStep solve (euclidMetric poseX poseX) (fun _ => false) [at' 1 0, at' 2 10] [at' 7 1, at' 8 9] = .ok a ∧
      (pairsOf a).length = 2 ∧
      ∀ track detection : Uuid → Fin 3 → ℝ,
        (∀ t ∈ [at' 1 0, at' 2 10], poseDist (fun i => (posX t i : ℝ)) (track (TrackOps.uuid t)) ≤ 1 / 10) →
        (∀ d ∈ [at' 7 1, at' 8 9], poseDist (fun i => (posX d i : ℝ)) (detection (TrackOps.uuid d)) ≤ 1 / 10) →
        totalOf (fun u v => poseDist (track u) (detection v)) (pairsOf a) ≤
          totalOf (fun u v => poseDist (track u) (detection v)) [(⟨[1]⟩, ⟨[7]⟩), (⟨[2]⟩, ⟨[8]⟩)] + 8002 / 10000 := by
  have hbig : (pruneScoresIf (scoreTracksAndDetections [at' 1 0, at' 2 10] [at' 7 1, at' 8 9]
      (euclidMetric poseX poseX)) (fun _ => false)).entries.length < 2 ^ 64 := by decide +kernel
  obtain ⟨a, ha⟩ := C23_returns_partial hs.perm (pruneScoresIf (scoreTracksAndDetections [at' 1 0, at' 2 10]
    [at' 7 1, at' 8 9] (euclidMetric poseX poseX)) (fun _ => false)) hbig (scoresIn_of_all (by decide +kernel))
    (.inl ⟨mkPair ⟨[1]⟩ ⟨[7]⟩, 1, by decide +kernel, by norm_num⟩)
  have hlen : (pairsOf a).length = 2 := by
    rw [(C20_card hs.perm hbig ha).1]; decide +kernel
  refine ⟨a, ha, hlen, fun track detection ht hd => ?_⟩
  have := C120_positions hs poseX poseX (ts := [at' 1 0, at' 2 10]) (ds := [at' 7 1, at' 8 9]) (by decide +kernel)
    (by decide +kernel) (by decide +kernel) (by decide +kernel) (M := 10) (by norm_num) (by norm_num) (pos := posX)
    (by
      intro o ho
      refine ⟨?_, ?_⟩
      · simp only [List.cons_append, List.nil_append, List.mem_cons, List.not_mem_nil, or_false] at ho
        rcases ho with rfl | rfl | rfl | rfl <;> rfl
      · simp only [List.cons_append, List.nil_append, List.mem_cons, List.not_mem_nil, or_false] at ho
        rcases ho with rfl | rfl | rfl | rfl <;> decide +kernel)
    ht hd ha (l := [(⟨[1]⟩, ⟨[7]⟩), (⟨[2]⟩, ⟨[8]⟩)]) (by unfold OneToOne; decide +kernel) (by decide +kernel)
    (by rw [hlen]; rfl)
  rw [hlen] at this
  norm_num at this ⊢
  exact this

end Mot.Props
