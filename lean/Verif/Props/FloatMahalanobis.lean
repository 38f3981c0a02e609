import Verif.Proofs.FloatMahalanobis
import Verif.Props.FloatPose
/-!
# The Mahalanobis score as it is computed: special values and association (C97)
-/

namespace Mot.Props

open Mot Spec

/-- C97: whatever the covariance and the poses, the score is NaN, +∞ or a number that is not
negative. -/
theorem C97_range {C : Fin 3 → Fin 3 → FP} {p q : FPose} {r : FP} (h : IsMahalanobisF C p q r) :
    r = .nan ∨ r = .inf false ∨ ∃ x, r = .fin x ∧ 0 ≤ x := by
  obtain ⟨d, -, s, -, rfl⟩ := h
  exact sqrt_cases (by decide) s

/-- C97: only rows and columns 0, 1 and 3 of the covariance matter. -/
theorem C97_pose_block {n : ℕ} (hn : 4 ≤ n) (P Q : Fin n → Fin n → FP)
    (h : ∀ i j : Fin n, i.val ∈ [0, 1, 3] → j.val ∈ [0, 1, 3] → P i j = Q i j) :
    poseCovF hn P = poseCovF hn Q := by
  funext i j
  unfold poseCovF
  fin_cases i <;> fin_cases j <;> exact h _ _ (by simp) (by simp)

/-- C97: the order of rows and columns is x, y, yaw. -/
theorem C97_pose_order {n : ℕ} (hn : 4 ≤ n) (P : Fin n → Fin n → FP) :
    poseCovF hn P 0 1 = P ⟨0, by omega⟩ ⟨1, by omega⟩ ∧
    poseCovF hn P 2 0 = P ⟨3, by omega⟩ ⟨0, by omega⟩ ∧
    poseCovF hn P 1 2 = P ⟨1, by omega⟩ ⟨3, by omega⟩ ∧
    poseCovF hn P 2 2 = P ⟨3, by omega⟩ ⟨3, by omega⟩ := ⟨rfl, rfl, rfl, rfl⟩

/-- C97: the two poses may be exchanged. -/
theorem C97_symmetric {C : Fin 3 → Fin 3 → FP} {p q : FPose} {r : FP} :
    IsMahalanobisF C p q r ↔ IsMahalanobisF C q p r := by
  have key : ∀ {p q : FPose}, IsMahalanobisF C p q r → IsMahalanobisF C q p r := by
    rintro p q ⟨d, hd, s, hs, rfl⟩
    refine ⟨d, hd, s, ?_, rfl⟩
    rw [show poseDiffF q p = fun i => (poseDiffF p q i).neg from funext (poseDiffF_swap p q)]
    exact hs.neg
  exact ⟨key, key⟩

/-- C97: a NaN coordinate or heading in either pose makes the score NaN. -/
theorem C97_nan_pose {C : Fin 3 → Fin 3 → FP} {p q : FPose} {r : FP} (h : IsMahalanobisF C p q r)
    (hn : ∃ i, p.coord i = .nan ∨ q.coord i = .nan) : r = .nan := by
  obtain ⟨d, -, s, hs, rfl⟩ := h
  rw [hs.nan_diff]
  · rfl
  obtain ⟨i, hi⟩ := hn
  refine ⟨i, ?_⟩
  have key : ∀ (p : FPose) (i : Fin 3), p.coord i = .nan → p.toFloat.coord i = .nan := by
    intro p i h
    fin_cases i
    all_goals
      simp only [FPose.coord] at h ⊢
      revert h
      simp only [FPose.toFloat]
      intro h
      first
        | (change p.x = .nan at h; show FP.conv binary32 p.x = .nan; rw [h]; rfl)
        | (change p.y = .nan at h; show FP.conv binary32 p.y = .nan; rw [h]; rfl)
        | (change p.yaw = .nan at h; show FP.conv binary32 p.yaw = .nan; rw [h]; rfl)
  unfold poseDiffF
  rcases hi with hi | hi
  · rw [key p i hi]; exact nan_sub _ _
  · rw [key q i hi]; exact sub_nan _ _

/-- C97: the score of a pose with itself is 0 if the computed inverse is finite, otherwise it is
NaN.  `hp`: the coordinates fit in `float`. -/
theorem C97_self {C : Fin 3 → Fin 3 → FP} {p : FPose} (hp : ∀ i, ∃ x, p.toFloat.coord i = .fin x)
    {d s : FP} (_hd : IsDet3F C d) (hs : IsFormF (inverse3F C d) (poseDiffF p p) s) :
    (FP.sqrt binary32 s = .fin 0 ↔ ∀ i j, ∃ x, inverse3F C d i j = .fin x) ∧
    (FP.sqrt binary32 s = .nan ↔ ∃ i j, (inverse3F C d i j).NotFin) := by
  have hz : ∀ i, poseDiffF p p i = .fin 0 := fun i => by
    obtain ⟨x, hx⟩ := hp i
    unfold poseDiffF
    rw [hx]
    show FP.ofRat binary32 (x - x) = _
    rw [sub_self, ofRat_zero]
  obtain ⟨h1, h2⟩ := hs.zero hz
  by_cases hA : ∀ i j, ∃ x, inverse3F C d i j = .fin x
  · have e := h1.2 hA
    have : FP.sqrt binary32 s = .fin 0 := by rw [e]; decide +kernel
    refine ⟨⟨fun _ => hA, fun _ => this⟩, ⟨fun h => ?_, fun h => ?_⟩⟩
    · rw [this] at h; cases h
    · rw [h2.2 h] at e; cases e
  · have hB : ∃ i j, (inverse3F C d i j).NotFin := by
      push Not at hA
      exact hA
    have e := h2.2 hB
    have : FP.sqrt binary32 s = .nan := by rw [e]; rfl
    refine ⟨⟨fun h => ?_, fun h => absurd h hA⟩, ⟨fun _ => hB, fun _ => this⟩⟩
    rw [this] at h; cases h

/-- C97: if the computed determinant is 0 then no score is finite. -/
theorem C97_singular {C : Fin 3 → Fin 3 → FP} (hC : ∀ d, IsDet3F C d → d = .fin 0) {p q : FPose}
    {r : FP} (h : IsMahalanobisF C p q r) : ∀ x, r ≠ .fin x := by
  obtain ⟨d, hd, s, hs, rfl⟩ := h
  refine sqrt_notFin (hs.notFin ⟨0, 0, notFin_mul (.inr (one_div_zn (.inl (hC d hd))))⟩)

/-- C97: a coordinate or heading that is known exactly, that is, one with variance and covariances 0,
makes every score NaN, whatever the rest of the covariance and the poses. -/
theorem C97_exact_coordinate {C : Fin 3 → Fin 3 → FP} {k : Fin 3} (hr : ∀ j, C k j = .fin 0)
    (hc : ∀ i, C i k = .fin 0) {p q : FPose} {r : FP} (h : IsMahalanobisF C p q r) : r = .nan := by
  obtain ⟨d, hd, s, hs, rfl⟩ := h
  have hA : inverse3F C d (k + 1) (k + 2) = .nan :=
    ZN.mul_notFin (cofactor_zn hr hc ((by decide : ∀ k : Fin 3, ¬ (k + 2 = k ∧ k + 1 = k)) k)) (one_div_zn (det_zn hr hc hd))
  rw [hs.nan ⟨_, _, hA⟩]
  rfl

/-- C97: a covariance with a known heading -/
example {p q : FPose} {r : FP}
    (h : IsMahalanobisF (diagF ![.fin (1 / 4), .fin (1 / 4), .fin 0]) p q r) : r = .nan :=
  C97_exact_coordinate (k := 2) (by decide) (by decide) h

/-- a covariance that is positive definite but nearly singular: the position is known to about half
a metre and a metre, the heading to about 12 degrees, and all are strongly correlated -/
def nearSingular : Matrix (Fin 3) (Fin 3) ℚ :=
  !![5188 / 2 ^ 14, 21312 / 2 ^ 15, 31680 / 2 ^ 18;
     21312 / 2 ^ 15, 87617 / 2 ^ 16, 130240 / 2 ^ 19;
     31680 / 2 ^ 18, 130240 / 2 ^ 19, 193607 / 2 ^ 22]

/-- C97: there is a symmetric positive definite covariance of `float`s for which poses one metre
apart have the score NaN, in whatever order the sums are taken: the computed determinant is negative. -/
theorem C97_negative_square :
    nearSingular.IsSymm ∧
    (∀ x y z : ℚ, ¬ (x = 0 ∧ y = 0 ∧ z = 0) →
      0 < ∑ i, ∑ j, ![x, y, z] i * nearSingular i j * ![x, y, z] j) ∧
    ∀ r, IsMahalanobisF (fun i j => .fin (nearSingular i j)) (finPose ![1, 0, 0]) (finPose ![0, 0, 0]) r →
      r = .nan := by
  refine ⟨?_, ?_, ?_⟩
  · ext i j
    fin_cases i <;> fin_cases j <;> rfl
  · intro x y z h
    simp only [Fin.sum_univ_three]
    show 0 < x * (5188 / 2 ^ 14) * x + x * (21312 / 2 ^ 15) * y + x * (31680 / 2 ^ 18) * z +
      (y * (21312 / 2 ^ 15) * x + y * (87617 / 2 ^ 16) * y + y * (130240 / 2 ^ 19) * z) +
      (z * (31680 / 2 ^ 18) * x + z * (130240 / 2 ^ 19) * y + z * (193607 / 2 ^ 22) * z)
    have e : x * (5188 / 2 ^ 14) * x + x * (21312 / 2 ^ 15) * y + x * (31680 / 2 ^ 18) * z +
      (y * (21312 / 2 ^ 15) * x + y * (87617 / 2 ^ 16) * y + y * (130240 / 2 ^ 19) * z) +
      (z * (31680 / 2 ^ 18) * x + z * (130240 / 2 ^ 19) * y + z * (193607 / 2 ^ 22) * z) =
      5188 / 2 ^ 14 * (x + 21312 / 10376 * y + 31680 / 83008 * z) ^ 2 +
        (87617 - 21312 ^ 2 / 5188) / 2 ^ 16 * (y + (130240 - 21312 * 31680 / 5188) /
          (8 * (87617 - 21312 ^ 2 / 5188)) * z) ^ 2 +
        (193607 - 31680 ^ 2 / 5188 - (130240 - 21312 * 31680 / 5188) ^ 2 /
          (87617 - 21312 ^ 2 / 5188)) / 2 ^ 22 * z ^ 2 := by
      norm_num
      ring
    rw [e]
    by_cases hz : z = 0
    · subst hz
      by_cases hy : y = 0
      · subst hy
        have hx : x ≠ 0 := fun hx => h ⟨hx, rfl, rfl⟩
        have : 0 < x ^ 2 := by positivity
        norm_num
        linarith
      · have : 0 < y ^ 2 := by positivity
        have h2 := sq_nonneg (x + 21312 / 10376 * y)
        norm_num at h2 ⊢
        linarith
    · have h0 : 0 < z ^ 2 := by positivity
      have h1 := sq_nonneg (x + 21312 / 10376 * y + 31680 / 83008 * z)
      have h2 := sq_nonneg (y + (130240 - 21312 * 31680 / 5188) / (8 * (87617 - 21312 ^ 2 / 5188)) * z)
      norm_num at h0 h1 h2 ⊢
      linarith
  · intro r hr
    have hm := hr.mem_distances3
    have key : ∀ r ∈ distances3 (fun i j => .fin (nearSingular i j))
        (poseDiffF (finPose ![1, 0, 0]) (finPose ![0, 0, 0])), r = .nan := by
      decide +kernel
    exact key r hm

/-! ## Association -/

section Association
variable {S₁ C₁ S₂ C₂ : Type}

/-- `f` is a Mahalanobis distance of a motion model with poses `pose` and pose covariances `cov` -/
def ComputesMahalanobis {S C : Type} (pose : S → FPose) (cov : C → Fin 3 → Fin 3 → FP)
    (f : S → C → S → FP) : Prop := ∀ s c t, IsMahalanobisF (cov c) (pose s) (pose t) (f s c t)

/-- the pose covariance of a variant object -/
def covOf (cov₁ : C₁ → Fin 3 → Fin 3 → FP) (cov₂ : C₂ → Fin 3 → Fin 3 → FP) :
    Obj2 S₁ C₁ S₂ C₂ → Fin 3 → Fin 3 → FP
  | .inl o => cov₁ o.covariance
  | .inr o => cov₂ o.covariance

/-- C97: a track that knows a coordinate or its heading exactly makes the associator undefined as
soon as there is a detection of the same kind, even after removal of all scores above a threshold
`g`. -/
theorem C97_exact_coordinate_ub (solve : Solver) {pose₁ : S₁ → FPose} {pose₂ : S₂ → FPose}
    {cov₁ : C₁ → Fin 3 → Fin 3 → FP} {cov₂ : C₂ → Fin 3 → Fin 3 → FP} {f₁ : S₁ → C₁ → S₁ → FP}
    {f₂ : S₂ → C₂ → S₂ → FP} (h₁ : ComputesMahalanobis pose₁ cov₁ f₁)
    (h₂ : ComputesMahalanobis pose₂ cov₂ f₂) (tracks detections : List (Obj2 S₁ C₁ S₂ C₂))
    (hT : (tracks.map TrackOps.uuid).Nodup) (hD : (detections.map TrackOps.uuid).Nodup)
    {t d : Obj2 S₁ C₁ S₂ C₂} (ht : t ∈ tracks) (hd : d ∈ detections) (hk : t.isLeft = d.isLeft)
    {k : Fin 3} (hr : ∀ j, covOf cov₁ cov₂ t k j = .fin 0) (hc : ∀ i, covOf cov₁ cov₂ t i k = .fin 0)
    (g : FP) :
    (gnnAssociator solve (scoreTracksAndDetections tracks detections (mahalanobisScore f₁ f₂))).IsUb ∧
    (gnnAssociator solve (pruneScoresIf
      (scoreTracksAndDetections tracks detections (mahalanobisScore f₁ f₂)) fun s => FP.gt s g)).IsUb := by
  have hmet : mahalanobisScore f₁ f₂ t d = some .nan := by
    cases t <;> cases d
    · exact congrArg some (C97_exact_coordinate hr hc (h₁ _ _ _))
    · exact absurd hk (by simp)
    · exact absurd hk (by simp)
    · exact congrArg some (C97_exact_coordinate hr hc (h₂ _ _ _))
  have hfind := C16_value_of_distinct tracks detections (mahalanobisScore f₁ f₂) hT hD ht hd
  rw [hmet] at hfind
  exact ⟨C23_nonfinite_is_ub solve _ hfind (by simp),
    C23_nonfinite_is_ub solve _ ((C18_prune_iff _ _ _ _).2 ⟨hfind, rfl⟩) (by simp)⟩

/-- C97: the associator on Mahalanobis scores either succeeds or has undefined behaviour.  It is
undefined exactly if there are no scores, or one is not finite, or every track is scored with every
detection and all scores are 0. -/
theorem C97_ub_iff {solve : Solver} (hs : IsPermSolver solve) {pose₁ : S₁ → FPose}
    {pose₂ : S₂ → FPose} {cov₁ : C₁ → Fin 3 → Fin 3 → FP} {cov₂ : C₂ → Fin 3 → Fin 3 → FP}
    {f₁ : S₁ → C₁ → S₁ → FP} {f₂ : S₂ → C₂ → S₂ → FP} (h₁ : ComputesMahalanobis pose₁ cov₁ f₁)
    (h₂ : ComputesMahalanobis pose₂ cov₂ f₂) (tracks detections : List (Obj2 S₁ C₁ S₂ C₂))
    (hbig : (scoreTracksAndDetections tracks detections
      (mahalanobisScore f₁ f₂)).entries.length < 2 ^ 64) :
    let scores := scoreTracksAndDetections tracks detections (mahalanobisScore f₁ f₂)
    ((gnnAssociator solve scores).IsUb ↔ scores.entries = [] ∨
      (∃ k, scores.find? k = some .nan ∨ scores.find? k = some (.inf false)) ∨
      (Complete scores ∧ ∀ k s, scores.find? k = some s → s = .fin 0)) ∧
    ((gnnAssociator solve scores).IsUb ∨ (gnnAssociator solve scores).IsOk) := by
  intro scores
  have hval : ∀ k s, scores.find? k = some s → s = .nan ∨ s = .inf false ∨
      ∃ q, s = .fin q ∧ 0 ≤ q ∧ q ≤ fltMaxQ := by
    intro k s hk
    obtain ⟨_, t, _, _, d, _, -, -, -, -, hm, -, -⟩ :=
      (C16_last_wins tracks detections _ (ofLex k).1 (ofLex k).2 s).1 hk
    cases t <;> cases d <;>
      simp only [mahalanobisScore, scoreVariant, Option.some.injEq, reduceCtorEq] at hm
    · rw [← hm]; exact mahalanobis_cases (h₁ _ _ _)
    · rw [← hm]; exact mahalanobis_cases (h₂ _ _ _)
  have h := C23_ub_iff hs scores hbig (fun k q hk => by
    rcases hval k _ hk with h | h | ⟨q', h, h1⟩ <;> cases h
    exact h1)
  refine ⟨h.1.trans ?_, h.2⟩
  refine or_congr_right (or_congr_left ⟨?_, ?_⟩)
  · rintro ⟨k, s, hk, hn⟩
    rcases hval k s hk with rfl | rfl | ⟨q, rfl, -⟩
    · exact ⟨k, .inl hk⟩
    · exact ⟨k, .inr hk⟩
    · exact absurd rfl (hn q)
  · rintro ⟨k, hk | hk⟩
    · exact ⟨k, _, hk, by simp⟩
    · exact ⟨k, _, hk, by simp⟩

end Association

end Mot.Props
