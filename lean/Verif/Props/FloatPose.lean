import Verif.Proofs.FloatPose
import Verif.Props.Matching
import Verif.Props.Scoring
import Mathlib.Tactic.FinCases
/-!
# The Euclidean score as it is computed (C85), and association with it (C86)
-/

namespace Mot.Props

open Mot Spec

/-! ## C85 -/

/-- a pose of finite `double`s -/
def finPose (a : Fin 3 → ℚ) : FPose := ⟨.fin (a 0), .fin (a 1), .fin (a 2)⟩

/-- the exact distance of two poses -/
noncomputable def exactDist (a b : Fin 3 → ℚ) : ℝ :=
  √(((a 0 : ℝ) - b 0) ^ 2 + ((a 1 : ℝ) - b 1) ^ 2 + ((a 2 : ℝ) - b 2) ^ 2)

/-- C85: the square root of a nonnegative `float` is correctly rounded. -/
theorem C85_sqrt_rounding (q : ℚ) (hq : 0 ≤ q) :
    ∃ r, FP.sqrt binary32 (.fin q) = .fin r ∧ NearestEvenReal 24 (-149) √(q : ℝ) r :=
  ⟨_, if_neg (not_lt.2 hq), binary32.sqrt_nearestEven (by decide) hq⟩

example : FP.sqrt binary32 (.fin 2) = .fin (11863283 / 8388608) := by decide +kernel

/-- C85: the score is symmetric, whatever the poses contain. -/
theorem C85_symmetric (s t : FPose) : euclidF s t = euclidF t s := euclidF_comm s t

/-- C85: the score is NaN, +∞ or a number from 0 to the largest `float`. -/
theorem C85_range (s t : FPose) :
    euclidF s t = .nan ∨ euclidF s t = .inf false ∨
      ∃ q, euclidF s t = .fin q ∧ 0 ≤ q ∧ q ≤ (2 ^ 24 - 1) * 2 ^ 104 := euclidF_cases s t

/-- C85: the square root used: not a number below zero and for NaN, infinite for infinity. -/
theorem C85_sqrt_special (f : Fmt) :
    FP.sqrt f .nan = .nan ∧ FP.sqrt f (.inf true) = .nan ∧ FP.sqrt f (.inf false) = .inf false ∧
    (∀ q < 0, FP.sqrt f (.fin q) = .nan) ∧ FP.sqrt f (.fin 0) = .fin 0 := by
  refine ⟨rfl, rfl, rfl, fun q hq => if_pos hq, ?_⟩
  simp [FP.sqrt, Fmt.sqrt]

/-- C85: a NaN anywhere makes the score NaN. -/
theorem C85_nan (s t : FPose)
    (h : s.x = .nan ∨ s.y = .nan ∨ s.yaw = .nan ∨ t.x = .nan ∨ t.y = .nan ∨ t.yaw = .nan) :
    euclidF s t = .nan := by
  have key : ∀ s t : FPose, (s.x = .nan ∨ s.y = .nan ∨ s.yaw = .nan) → euclidF s t = .nan := by
    rintro ⟨x, y, z⟩ t h
    unfold euclidF
    simp only
    rw [dot3_nan]
    · rfl
    · simp only [FPose.toFloat] at h ⊢
      rcases h with rfl | rfl | rfl
      · exact .inl (nan_sub _ _)
      · exact .inr (.inl (nan_sub _ _))
      · exact .inr (.inr (nan_sub _ _))
  rcases h with h | h | h | h | h | h
  · exact key s t (.inl h)
  · exact key s t (.inr (.inl h))
  · exact key s t (.inr (.inr h))
  · rw [euclidF_comm]; exact key t s (.inl h)
  · rw [euclidF_comm]; exact key t s (.inr (.inl h))
  · rw [euclidF_comm]; exact key t s (.inr (.inr h))

/-- C85: a coordinate that has no finite `float` makes even the score of a pose with itself
NaN. -/
theorem C85_self_overflow (s : FPose)
    (h : ∃ c ∈ [s.x, s.y, s.yaw], ∀ q, c = .fin q → (2 ^ 25 - 1) * 2 ^ 103 ≤ |q|) :
    euclidF s s = .nan := by
  have key : ∀ c : FP, (∀ q, c = .fin q → (2 ^ 25 - 1) * 2 ^ 103 ≤ |q|) →
      FP.sub binary32 (c.conv binary32) (c.conv binary32) = .nan := by
    intro c hc
    cases c with
    | nan => rfl
    | inf n => show (if n = n then FP.nan else _) = _; rw [if_pos rfl]
    | fin q =>
      have hq := hc q rfl
      have hov := binary32.overflow_iff (by decide) (by decide) (by decide +kernel) (by decide) q
      have : FP.conv binary32 (.fin q) = .inf (decide (q < 0)) :=
        if_neg fun h => absurd (hov.1 h) (not_lt.2 (by simpa [binary32] using hq))
      rw [this]
      exact if_pos rfl
  obtain ⟨c, hc, hq⟩ := h
  have hk := key c hq
  unfold euclidF
  simp only
  rw [dot3_nan]
  · rfl
  · simp only [FPose.toFloat]
    simp only [List.mem_cons, List.not_mem_nil, or_false] at hc
    rcases hc with rfl | rfl | rfl
    · exact .inl hk
    · exact .inr (.inl hk)
    · exact .inr (.inr hk)

example : euclidF ⟨.fin (2 ^ 128), .fin 0, .fin 0⟩ ⟨.fin (2 ^ 128), .fin 0, .fin 0⟩ = .nan :=
  C85_self_overflow _ ⟨.fin (2 ^ 128), by simp, fun q hq => by cases hq; norm_num⟩

/-- the coordinate is infinite, or too large for `float`, with the given sign (`true` is
negative) -/
def Beyond (c : FP) (neg : Bool) : Prop :=
  c = .inf neg ∨ ∃ q : ℚ, c = .fin q ∧ (2 ^ 25 - 1) * 2 ^ 103 ≤ |q| ∧ (neg = true ↔ q < 0)

private def NonNeg (c : FP) : Prop := c = .inf false ∨ ∃ q, c = .fin q ∧ 0 ≤ q

private theorem nonNeg_ofRat {x : ℚ} (h : 0 ≤ x) : NonNeg (FP.ofRat binary32 x) := by
  unfold FP.ofRat
  split
  · exact .inr ⟨_, rfl, binary32.round_nonneg h⟩
  · exact .inl (by rw [decide_eq_false (not_lt.2 h)])

private theorem nonNeg_sq {c : FP} (h : c ≠ .nan) : NonNeg (FP.mul binary32 c c) := by
  cases c with
  | nan => exact absurd rfl h
  | inf n => exact .inl (by cases n <;> rfl)
  | fin q => exact nonNeg_ofRat (mul_self_nonneg q)

private theorem nonNeg_add {a b : FP} (ha : NonNeg a) (hb : NonNeg b) :
    NonNeg (FP.add binary32 a b) := by
  obtain rfl | ⟨p, rfl, hp⟩ := ha <;> obtain rfl | ⟨q, rfl, hq⟩ := hb
  · exact .inl rfl
  · exact .inl rfl
  · exact .inl rfl
  · exact nonNeg_ofRat (add_nonneg hp hq)

private theorem nonNeg_sqrt {c : FP} (h : NonNeg c) : FP.sqrt binary32 c ≠ .nan := by
  obtain rfl | ⟨q, rfl, hq⟩ := h
  · exact fun h => by cases h
  · show (if q < 0 then FP.nan else _) ≠ _
    rw [if_neg (not_lt.2 hq)]
    exact fun h => by cases h

private theorem conv_inf_iff (c : FP) (n : Bool) : c.conv binary32 = .inf n ↔ Beyond c n := by
  cases c with
  | nan => simp [FP.conv, Beyond]
  | inf m => simp [FP.conv, Beyond]
  | fin q =>
    have hov := binary32.overflow_iff (by decide) (by decide) (by decide +kernel) (by decide) q
    have hT : |q| < (2 ^ 25 - 1) * 2 ^ 103 ↔ |binary32.round q| < (2 : ℚ) ^ binary32.emax := by
      rw [hov]; simp [binary32]
    show FP.ofRat binary32 q = _ ↔ _
    unfold FP.ofRat
    by_cases h : |binary32.round q| < (2 : ℚ) ^ binary32.emax
    · rw [if_pos h]
      refine ⟨fun h0 => (nomatch h0), ?_⟩
      rintro (h' | ⟨_, h', h'', -⟩)
      · cases h'
      · cases h'
        exact absurd (hT.2 h) (not_lt.2 h'')
    · rw [if_neg h]
      have h1 : (2 ^ 25 - 1) * 2 ^ 103 ≤ |q| := not_lt.1 fun h' => h (hT.1 h')
      constructor
      · intro h'
        refine .inr ⟨q, rfl, h1, ?_⟩
        rw [← FP.inf.inj h', decide_eq_true_iff]
      · rintro (h' | ⟨_, h', -, h''⟩)
        · cases h'
        · cases h'
          congr 1
          rw [Bool.eq_iff_iff, decide_eq_true_iff, h'']

private theorem conv_nan_iff (c : FP) : c.conv binary32 = .nan ↔ c = .nan := by
  cases c with
  | nan => simp [FP.conv]
  | inf m => simp [FP.conv]
  | fin q =>
    show FP.ofRat binary32 q = _ ↔ _
    unfold FP.ofRat
    split <;> simp

private theorem sub_nan_iff (a b : FP) : FP.sub binary32 a b = .nan ↔
    a = .nan ∨ b = .nan ∨ ∃ n, a = .inf n ∧ b = .inf n := by
  cases a with
  | nan => simp [nan_sub]
  | inf n => cases b with
    | nan => simp [FP.sub]
    | inf m => by_cases h : n = m <;> simp [FP.sub, h, Ne.symm]
    | fin q => simp [FP.sub]
  | fin p => cases b with
    | nan => simp [FP.sub]
    | inf m => simp [FP.sub]
    | fin q =>
      show FP.ofRat binary32 _ = _ ↔ _
      unfold FP.ofRat
      split <;> simp

/-- C85: exactly when the score is NaN: a coordinate is NaN in one of the poses, or infinite or too
large for `float` in both, with the same sign. -/
theorem C85_nan_iff (s t : FPose) : euclidF s t = .nan ↔
    ∃ p ∈ [(s.x, t.x), (s.y, t.y), (s.yaw, t.yaw)],
      p.1 = .nan ∨ p.2 = .nan ∨ ∃ neg, Beyond p.1 neg ∧ Beyond p.2 neg := by
  have key (a b : FP) : FP.sub binary32 (a.conv binary32) (b.conv binary32) = .nan ↔
      a = .nan ∨ b = .nan ∨ ∃ neg, Beyond a neg ∧ Beyond b neg := by
    simp only [sub_nan_iff, conv_nan_iff, conv_inf_iff]
  simp only [List.mem_cons, List.not_mem_nil, or_false, exists_eq_or_imp, exists_eq_left, ← key]
  unfold euclidF
  simp only [FPose.toFloat]
  constructor
  · intro h
    by_contra hn
    simp only [not_or] at hn
    exact nonNeg_sqrt (nonNeg_add (nonNeg_add (nonNeg_sq hn.1) (nonNeg_sq hn.2.1))
      (nonNeg_sq hn.2.2)) h
  · intro h
    rw [dot3_nan h]
    rfl

/-- both positions beyond the range of `float`: NaN on the same side, +∞ on opposite sides -/
example : euclidF ⟨.fin (2 ^ 128), .fin 0, .fin 0⟩ ⟨.fin (2 ^ 130), .fin 0, .fin 0⟩ = .nan ∧
    euclidF ⟨.fin (2 ^ 128), .fin 0, .fin 0⟩ ⟨.fin (-2 ^ 128), .fin 0, .fin 0⟩ ≠ .nan := by
  refine ⟨(C85_nan_iff _ _).2 ⟨_, List.mem_cons_self, .inr (.inr ⟨false, ?_, ?_⟩)⟩, ?_⟩
  · exact .inr ⟨_, rfl, by norm_num, by norm_num⟩
  · exact .inr ⟨_, rfl, by norm_num, by norm_num⟩
  · intro h
    obtain ⟨p, hp, h'⟩ := (C85_nan_iff _ _).1 h
    simp only [List.mem_cons, List.not_mem_nil, or_false] at hp
    rcases hp with rfl | rfl | rfl <;> rcases h' with h' | h' | ⟨n, h1, h2⟩
    · cases h'
    · cases h'
    · rcases h1 with h1 | ⟨_, h1, -, h1'⟩ <;> rcases h2 with h2 | ⟨_, h2, -, h2'⟩
      · cases h1
      · cases h1
      · cases h2
      · cases h1; cases h2
        have := h2'.2 (by norm_num)
        rw [this] at h1'
        norm_num at h1'
    all_goals first
      | cases h'
      | (rcases h1 with h1 | ⟨_, h1, h3, -⟩
         · cases h1
         · cases h1; norm_num at h3)
/-- C85: with all coordinates of magnitude at most `M`, where `1 ≤ M ≤ 2⁶⁰`, the score is finite
and differs from the exact distance `d` by at most `M / 2²² + d / 2²¹`. -/
theorem C85_accuracy (M : ℚ) (hM : 1 ≤ M) (hM' : M ≤ 2 ^ 60) (a b : Fin 3 → ℚ)
    (ha : ∀ i, |a i| ≤ M) (hb : ∀ i, |b i| ≤ M) :
    ∃ r : ℚ, euclidF (finPose a) (finPose b) = .fin r ∧
      |(r : ℝ) - exactDist a b| ≤ M / 2 ^ 22 + exactDist a b / 2 ^ 21 := by
  obtain ⟨h1, -, h2⟩ := euclidF_fin hM hM' ha hb
  refine ⟨_, h1, ?_⟩
  unfold exactDist
  push_cast at h2
  exact h2

/-- C85: so a score of 0 means that the poses are at most `M / 2²¹` apart. -/
theorem C85_zero (M : ℚ) (hM : 1 ≤ M) (hM' : M ≤ 2 ^ 60) (a b : Fin 3 → ℚ)
    (ha : ∀ i, |a i| ≤ M) (hb : ∀ i, |b i| ≤ M)
    (h0 : euclidF (finPose a) (finPose b) = .fin 0) : exactDist a b ≤ M / 2 ^ 21 := by
  obtain ⟨r, h1, h2⟩ := C85_accuracy M hM hM' a b ha hb
  rw [h0] at h1
  cases h1
  have hM1 : (1 : ℝ) ≤ M := by exact_mod_cast hM
  have hd : 0 ≤ exactDist a b := Real.sqrt_nonneg _
  have := (abs_le.1 h2).1
  generalize exactDist a b = d at *
  norm_num at *
  linarith

/-- C85: and poses with the same coordinates as `float`s have score 0. -/
theorem C85_same_float (a b : Fin 3 → ℚ) (h : ∀ i, |a i| ≤ 2 ^ 60)
    (hab : ∀ i, FP.ofRat binary32 (a i) = FP.ofRat binary32 (b i)) :
    euclidF (finPose a) (finPose b) = .fin 0 := by
  have hc : ∀ i, FP.sub binary32 (FP.conv binary32 (.fin (a i))) (FP.conv binary32 (.fin (b i))) =
      .fin 0 := by
    intro i
    show FP.sub binary32 (FP.ofRat binary32 (a i)) (FP.ofRat binary32 (b i)) = _
    rw [← hab i, b32_ofRat ((h i).trans (by norm_num))]
    show FP.ofRat binary32 (_ - _) = _
    rw [sub_self, b32_ofRat (by norm_num), Fmt.round_zero]
  have e : euclidF (finPose a) (finPose b) = FP.sqrt binary32 (dot3 (.fin 0) (.fin 0) (.fin 0)) := by
    unfold euclidF
    simp only [finPose, FPose.toFloat, hc]
  rw [e]
  decide +kernel

/-- C85: positions a quarter of a metre apart can have score 0. -/
theorem C85_indistinguishable :
    euclidF (finPose ![5000000, 0, 0]) (finPose ![5000000 + 1 / 4, 0, 0]) = .fin 0 := by
  decide +kernel

/-- C85: if every coordinate of `b` lies between those of `a` and `c`, then `b` does not score
higher than `c`. -/
theorem C85_monotone (a b c : Fin 3 → ℚ) (ha : ∀ i, |a i| ≤ 2 ^ 60) (hc : ∀ i, |c i| ≤ 2 ^ 60)
    (h : ∀ i, (a i ≤ b i ∧ b i ≤ c i) ∨ (c i ≤ b i ∧ b i ≤ a i)) :
    ∃ r r' : ℚ, euclidF (finPose a) (finPose b) = .fin r ∧
      euclidF (finPose a) (finPose c) = .fin r' ∧ r ≤ r' := by
  have hb : ∀ i, |b i| ≤ 2 ^ 60 := by
    intro i
    obtain ⟨a1, a2⟩ := abs_le.1 (ha i)
    obtain ⟨c1, c2⟩ := abs_le.1 (hc i)
    rw [abs_le]
    rcases h i with ⟨h1, h2⟩ | ⟨h1, h2⟩ <;> constructor <;> linarith
  have hM : (1 : ℚ) ≤ 2 ^ 60 := by norm_num
  exact ⟨_, _, (euclidF_fin hM le_rfl ha hb).1, (euclidF_fin hM le_rfl ha hc).1, scoreQ_mono h⟩

example : euclidF (finPose ![0, 0, 0]) (finPose ![3, 4, 0]) = .fin 5 ∧
    euclidF (finPose ![0, 0, 0]) (finPose ![3, 4, 1]) = .fin (10693419 / 2097152) := by
  decide +kernel

/-- the hypotheses of `C85_accuracy` for two vehicles 10 km from the origin -/
example : ∃ r : ℚ, euclidF (finPose ![10000, -3, 1 / 10]) (finPose ![9990, 2, 1 / 5]) = .fin r ∧
    |(r : ℝ) - exactDist ![10000, -3, 1 / 10] ![9990, 2, 1 / 5]| ≤
      (10000 : ℚ) / 2 ^ 22 + exactDist ![10000, -3, 1 / 10] ![9990, 2, 1 / 5] / 2 ^ 21 :=
  C85_accuracy 10000 (by norm_num) (by norm_num) _ _
    (by decide +kernel) (by decide +kernel)

/-! ## C86 -/

section Association
variable {S₁ C₁ S₂ C₂ : Type}

/-- the Euclidean score of objects whose poses are `pose₁` and `pose₂` of their states -/
def euclidMetric (pose₁ : S₁ → FPose) (pose₂ : S₂ → FPose) :
    Obj2 S₁ C₁ S₂ C₂ → Obj2 S₁ C₁ S₂ C₂ → Option FP :=
  euclideanScore (fun s t => euclidF (pose₁ s) (pose₁ t)) fun s t => euclidF (pose₂ s) (pose₂ t)

/-- the pose of a variant object -/
def poseOf (pose₁ : S₁ → FPose) (pose₂ : S₂ → FPose) : Obj2 S₁ C₁ S₂ C₂ → FPose
  | .inl o => pose₁ o.state
  | .inr o => pose₂ o.state

/-- C86: the associator on Euclidean scores of arbitrary poses either succeeds or has undefined
behaviour.  It is undefined exactly if there are no scores, or one is not finite, or every track is
scored with every detection and all scores are 0. -/
theorem C86_ub_iff {solve : Solver} (hs : IsPermSolver solve) (pose₁ : S₁ → FPose)
    (pose₂ : S₂ → FPose) (tracks detections : List (Obj2 S₁ C₁ S₂ C₂))
    (hbig : (scoreTracksAndDetections tracks detections
      (euclidMetric pose₁ pose₂)).entries.length < 2 ^ 64) :
    let scores := scoreTracksAndDetections tracks detections (euclidMetric pose₁ pose₂)
    ((gnnAssociator solve scores).IsUb ↔ scores.entries = [] ∨
      (∃ k, scores.find? k = some .nan ∨ scores.find? k = some (.inf false)) ∨
      (Complete scores ∧ ∀ k s, scores.find? k = some s → s = .fin 0)) ∧
    ((gnnAssociator solve scores).IsUb ∨ (gnnAssociator solve scores).IsOk) := by
  intro scores
  have hval : ∀ k s, scores.find? k = some s → s = .nan ∨ s = .inf false ∨
      ∃ q, s = .fin q ∧ 0 ≤ q ∧ q ≤ fltMaxQ := by
    intro k s hk
    obtain ⟨_, t, _, _, d, _, -, -, -, -, hm, -, -⟩ :=
      (C16_last_wins tracks detections _ (ofLex k).1 (ofLex k).2 s).1 hk
    cases t <;> cases d <;>
      simp only [euclidMetric, euclideanScore, scoreVariant, Option.some.injEq, reduceCtorEq] at hm
    · rw [← hm]; exact euclidF_cases _ _
    · rw [← hm]; exact euclidF_cases _ _
  have h := C23_ub_iff hs scores hbig (fun k q hk => by
    rcases hval k _ hk with h | h | ⟨q', h, h1⟩ <;> cases h
    exact h1)
  refine ⟨h.1.trans ?_, h.2⟩
  refine or_congr_right (or_congr_left ⟨?_, ?_⟩)
  · rintro ⟨k, s, hk, hn⟩
    rcases hval k s hk with rfl | rfl | ⟨q, rfl, -⟩
    · exact ⟨k, .inl hk⟩
    · exact ⟨k, .inr hk⟩
    · exact absurd rfl (hn q)
  · rintro ⟨k, hk | hk⟩
    · exact ⟨k, _, hk, by simp⟩
    · exact ⟨k, _, hk, by simp⟩

/-- C86: if all poses are finite with coordinates of magnitude at most `M`, where
`1 ≤ M ≤ 2⁶⁰`, and some track and detection of the same kind are more than `M / 2²¹` apart, then
the associator succeeds. -/
theorem C86_defined {solve : Solver} (hs : IsPermSolver solve) (pose₁ : S₁ → FPose)
    (pose₂ : S₂ → FPose) (tracks detections : List (Obj2 S₁ C₁ S₂ C₂))
    (hbig : (scoreTracksAndDetections tracks detections
      (euclidMetric pose₁ pose₂)).entries.length < 2 ^ 64)
    (hT : (tracks.map TrackOps.uuid).Nodup) (hD : (detections.map TrackOps.uuid).Nodup)
    {M : ℚ} (hM : 1 ≤ M) (hM' : M ≤ 2 ^ 60)
    (hp : ∀ o ∈ tracks ++ detections, ∃ a : Fin 3 → ℚ, poseOf pose₁ pose₂ o = finPose a ∧
      ∀ i, |a i| ≤ M)
    {t d : Obj2 S₁ C₁ S₂ C₂} (ht : t ∈ tracks) (hd : d ∈ detections) (hk : t.isLeft = d.isLeft)
    {a b : Fin 3 → ℚ} (hta : poseOf pose₁ pose₂ t = finPose a)
    (hdb : poseOf pose₁ pose₂ d = finPose b) (hfar : M / 2 ^ 21 < exactDist a b) :
    ∃ r, gnnAssociator solve (scoreTracksAndDetections tracks detections
      (euclidMetric pose₁ pose₂)) = .ok r := by
  have inj : ∀ a b : Fin 3 → ℚ, finPose a = finPose b → a = b := by
    intro a b h
    simp only [finPose, FPose.mk.injEq, FP.fin.injEq] at h
    funext i
    fin_cases i
    · exact h.1
    · exact h.2.1
    · exact h.2.2
  have hmet : ∀ x y : Obj2 S₁ C₁ S₂ C₂, euclidMetric pose₁ pose₂ x y =
      if x.isLeft = y.isLeft then some (euclidF (poseOf pose₁ pose₂ x) (poseOf pose₁ pose₂ y))
      else none := by
    intro x y; cases x <;> cases y <;> rfl
  obtain ⟨h1, h2⟩ := C86_ub_iff hs pose₁ pose₂ tracks detections hbig
  have hfind := C16_value_of_distinct tracks detections (euclidMetric pose₁ pose₂) hT hD ht hd
  rw [hmet, if_pos hk, hta, hdb] at hfind
  rcases h2 with h2 | h2
  · exfalso
    rcases h1.1 h2 with h | ⟨k, h⟩ | ⟨-, h⟩
    · have := SMap.find?_eq_some.1 hfind
      rw [h] at this
      simp at this
    · obtain ⟨s, hks, hbad⟩ : ∃ s, (scoreTracksAndDetections tracks detections
          (euclidMetric pose₁ pose₂)).find? k = some s ∧ ∀ q, s ≠ .fin q := by
        rcases h with h | h
        · exact ⟨_, h, by simp⟩
        · exact ⟨_, h, by simp⟩
      obtain ⟨_, t', _, _, d', _, htt, hdd, -, -, hm, -, -⟩ :=
        (C16_last_wins tracks detections _ (ofLex k).1 (ofLex k).2 s).1 hks
      rw [hmet] at hm
      split at hm
      · obtain ⟨a', ha', hba'⟩ := hp t' (by rw [htt]; simp)
        obtain ⟨b', hb', hbb'⟩ := hp d' (by rw [hdd]; simp)
        obtain ⟨r, hr, -⟩ := C85_accuracy M hM hM' a' b' hba' hbb'
        rw [ha', hb', hr] at hm
        cases hm
        exact hbad r rfl
      · cases hm
    · have hz := h _ _ hfind
      obtain ⟨a', ha', hba'⟩ := hp t (List.mem_append.2 (.inl ht))
      obtain ⟨b', hb', hbb'⟩ := hp d (List.mem_append.2 (.inr hd))
      rw [hta] at ha'
      rw [hdb] at hb'
      obtain rfl := inj _ _ ha'
      obtain rfl := inj _ _ hb'
      exact absurd (C85_zero M hM hM' a b hba' hbb' hz) (not_le.2 hfar)
  · exact Outcome.isOk_iff.1 h2

/-- C86: with different UUIDs, one track or detection with a NaN coordinate or heading is enough to
make the associator undefined, as soon as there is a counterpart of the same kind. -/
theorem C86_nan_pose {solve : Solver} (hs : IsPermSolver solve) (pose₁ : S₁ → FPose)
    (pose₂ : S₂ → FPose) (tracks detections : List (Obj2 S₁ C₁ S₂ C₂))
    (hbig : (scoreTracksAndDetections tracks detections
      (euclidMetric pose₁ pose₂)).entries.length < 2 ^ 64)
    (hT : (tracks.map TrackOps.uuid).Nodup) (hD : (detections.map TrackOps.uuid).Nodup)
    {t d : Obj2 S₁ C₁ S₂ C₂} (ht : t ∈ tracks) (hd : d ∈ detections) (hk : t.isLeft = d.isLeft)
    (hn : ∃ o ∈ [t, d], (poseOf pose₁ pose₂ o).x = .nan ∨ (poseOf pose₁ pose₂ o).y = .nan ∨
      (poseOf pose₁ pose₂ o).yaw = .nan) :
    (gnnAssociator solve (scoreTracksAndDetections tracks detections
      (euclidMetric pose₁ pose₂))).IsUb := by
  have hmet : euclidMetric pose₁ pose₂ t d = some .nan := by
    have h1 : euclidMetric pose₁ pose₂ t d =
        some (euclidF (poseOf pose₁ pose₂ t) (poseOf pose₁ pose₂ d)) := by
      cases t <;> cases d <;> first | rfl | exact absurd hk (by simp)
    rw [h1, C85_nan]
    obtain ⟨o, ho, hn⟩ := hn
    simp only [List.mem_cons, List.not_mem_nil, or_false] at ho
    rcases ho with rfl | rfl
    · rcases hn with h | h | h <;> simp [h]
    · rcases hn with h | h | h <;> simp [h]
  have hfind := C16_value_of_distinct tracks detections (euclidMetric pose₁ pose₂) hT hD ht hd
  rw [hmet] at hfind
  exact (C86_ub_iff hs pose₁ pose₂ tracks detections hbig).1.2 (.inr (.inl ⟨_, .inl hfind⟩))

end Association

/-- an object at `x` metres -/
def at' (n : Fin 256) (x : ℚ) : Obj2 ℚ Unit ℚ Unit := .inl ⟨0, x, (), ⟨[n]⟩, .unknown⟩

/-- pose of such an object -/
def poseX (x : ℚ) : FPose := finPose ![x, 0, 0]

/-- C86: a single track and a single detection a quarter of a metre apart, 5000 km from the
origin: undefined behaviour. -/
theorem C86_quarter_metre {solve : Solver} (hs : IsPermSolver solve) :
    (gnnAssociator solve (scoreTracksAndDetections [at' 1 5000000] [at' 2 (5000000 + 1 / 4)]
      (euclidMetric poseX poseX))).IsUb := by
  have hfind : (scoreTracksAndDetections [at' 1 5000000] [at' 2 (5000000 + 1 / 4)]
      (euclidMetric poseX poseX)).entries = [(mkPair ⟨[1]⟩ ⟨[2]⟩, .fin 0)] := by
    decide +kernel
  have hpair : ∀ t d, Scored (scoreTracksAndDetections [at' 1 5000000] [at' 2 (5000000 + 1 / 4)]
      (euclidMetric poseX poseX)) t d → t = ⟨[1]⟩ ∧ d = ⟨[2]⟩ := by
    intro t d h
    obtain ⟨s, hs⟩ := Option.isSome_iff_exists.1 h
    have := SMap.find?_eq_some.1 hs
    rw [hfind] at this
    simp only [List.mem_singleton, Prod.mk.injEq] at this
    exact Prod.mk.inj (show (t, d) = (⟨[1]⟩, ⟨[2]⟩) from this.1)
  refine (C86_ub_iff hs poseX poseX _ _ (by rw [hfind]; norm_num)).1.2 (.inr (.inr ⟨?_, ?_⟩))
  · rintro t d ⟨d', ht⟩ ⟨t', hd⟩
    obtain ⟨rfl, rfl⟩ := hpair _ _ ht
    obtain ⟨rfl, rfl⟩ := hpair _ _ hd
    exact ht
  · intro k s hk
    have := SMap.find?_eq_some.1 hk
    rw [hfind] at this
    simp only [List.mem_singleton, Prod.mk.injEq] at this
    exact this.2

/-- the hypotheses of `C86_nan_pose` are met -/
example {solve : Solver} (hs : IsPermSolver solve) :
    (gnnAssociator solve (scoreTracksAndDetections [at' 1 1000, at' 3 7] [at' 2 1002]
      (euclidMetric (fun x => ⟨.fin x, if x = 7 then .nan else .fin 0, .fin 0⟩) poseX))).IsUb :=
  C86_nan_pose hs _ _ _ _ (by decide +kernel) (by decide +kernel) (by decide +kernel)
    (t := at' 3 7) (d := at' 2 1002) (by simp) (by simp) rfl
    ⟨at' 3 7, by simp, .inr (.inl (by simp [at', poseOf]))⟩

/-- the hypotheses of `C86_defined` are met two metres apart -/
example {solve : Solver} (hs : IsPermSolver solve) :
    ∃ r, gnnAssociator solve (scoreTracksAndDetections [at' 1 1000] [at' 2 1002]
      (euclidMetric poseX poseX)) = .ok r := by
  refine C86_defined hs poseX poseX _ _ (by decide +kernel) (by decide +kernel) (by decide +kernel)
    (M := 1002) (by norm_num) (by norm_num) ?_ (t := at' 1 1000) (d := at' 2 1002) (by simp)
    (by simp) rfl (a := ![1000, 0, 0]) (b := ![1002, 0, 0]) rfl rfl ?_
  · intro o ho
    simp only [List.cons_append, List.nil_append, List.mem_cons, List.not_mem_nil, or_false] at ho
    rcases ho with rfl | rfl
    · exact ⟨![1000, 0, 0], rfl, by decide +kernel⟩
    · exact ⟨![1002, 0, 0], rfl, by decide +kernel⟩
  · have : exactDist ![1000, 0, 0] ![1002, 0, 0] = 2 := by
      show √((((1000 : ℚ) : ℝ) - ((1002 : ℚ) : ℝ)) ^ 2 + (((0 : ℚ) : ℝ) - ((0 : ℚ) : ℝ)) ^ 2 +
        (((0 : ℚ) : ℝ) - ((0 : ℚ) : ℝ)) ^ 2) = 2
      rw [Real.sqrt_eq_iff_mul_self_eq_of_pos (by norm_num)]
      norm_num
    rw [this]
    norm_num

end Mot.Props
