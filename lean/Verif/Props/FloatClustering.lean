import Verif.Proofs.FloatClusterHeading
import Verif.Props.Clustering
import Verif.Props.FloatCtra
/-!
# Clustering as it is computed (C99)

In the statements `sq` is the function `std::pow(·, 2)`; coordinates are numbered 0 (x), 1 (y),
2 (speed), 3 (heading), 4 (yaw rate).
-/

namespace Mot.Props

open Mot Spec

variable {m : Libm} {δ : Type} [SqDistF m δ] [ReadableF δ] [ClusterLawsF δ]

/-- The statements of this file apply to the three detection types of the library. -/
theorem C99_detection_types (m : Libm) (C C' : Type) : ClusterLawsF (DynObj (CtrvStateF m) C) ∧
    ClusterLawsF (DynObj (CtraStateF m) C) ∧
    ClusterLawsF (Obj2 (CtrvStateF m) C (CtraStateF m) C') :=
  ⟨clusterLawsFCtrv, clusterLawsFCtra, clusterLawsFVariant⟩

/-- squaring by a correctly rounded multiplication is an admissible `std::pow(·, 2)` -/
example : Squares (fun x => FP.mul binary64 x x) := squares_mul

/-- C99: the computed squared distance of two detections with finite coordinates (below 2^99) is
finite, not negative, and differs from the exact squared Euclidean distance of the two readings by
at most the part 2^-49 of it (and 2^-195). -/
theorem C99_distance {sq : FP → FP} (hsq : Squares sq) (o d : δ) (a b : Fin 5 → ℚ)
    (ho : ∀ i, ReadableF.reading o i = .fin (a i) ∧ |a i| ≤ 2 ^ 99)
    (hd : ∀ i, ReadableF.reading d i = .fin (b i) ∧ |b i| ≤ 2 ^ 99) :
    ∃ t : ℚ, SqDistF.sqDist sq (ClusterableOf.makePoint o) d = .fin t ∧ 0 ≤ t ∧
      |t - sqDistQ a b| ≤ sqDistQ a b / 2 ^ 49 + 1 / 2 ^ 195 := by
  rw [ClusterLawsF.sqDist_eq]
  simp only [ClusterLawsF.makePoint_eq, (ho _).1, (hd _).1]
  exact sqDist_close hsq (fun i => (ho i).2) fun i => (hd i).2

/-- C99: whatever `std::pow` returns, and whatever the coordinates and the threshold are (NaN and
infinities included), every detection is in exactly one cluster. -/
theorem C99_exactly_one (sq : FP → FP) (ds : List δ) (thr : FP) (hn : (ds.map Identified.id).Nodup)
    (d : δ) (hd : d ∈ ds) : ∃! i : Fin (clusterDetectionsF sq ds thr).length,
      In d ((clusterDetectionsF sq ds thr).get i) :=
  C58_exactly_one _ ds hn d hd

/-- C99: the computed clusters are the clusters of the exact model, in the same order and with the
same members, unless the squared distance of two of the detections is within the part 2^-49 (and
2^-195) of the threshold. -/
theorem C99_clusters {δ' : Type} [Clusterable δ'] [Readable δ'] [ClusterLaws δ']
    {sq : FP → FP} (hsq : Squares sq) (ds : List δ) (hn : (ds.map Identified.id).Nodup)
    (e : δ → δ') (a : δ → Fin 5 → ℚ) (he : ∀ d ∈ ds, Represents d (e d) (a d))
    (ha : ∀ d ∈ ds, ∀ i, |a d i| ≤ 2 ^ 99) (thr : ℚ)
    (hthr : ∀ o ∈ ds, ∀ d ∈ ds, Identified.id o ≠ Identified.id d →
      sqDistQ (a o) (a d) / 2 ^ 49 + 1 / 2 ^ 195 < |sqDistQ (a o) (a d) - thr|) :
    (clusterDetectionsF sq ds (.fin thr)).map
        (fun c => c.detections.entries.map fun x => (x.1, e x.2)) =
      (clusterDetectionsDefault (ds.map e) thr).map fun c => c.detections.entries := by
  classical
  refine clusters_correspond _ _ ds (fun d hd => ?_) ?_ fun o ho d hd hne => ?_
  · rw [ClusterIds.uuid_eq, ClusterIds.uuid_eq, (he d hd).1]
  · rwa [show (ClusterableOf.uuid : δ → Uuid) = Identified.id from funext ClusterIds.uuid_eq]
  rw [ClusterIds.uuid_eq, ClusterIds.uuid_eq] at hne
  obtain ⟨t, h1, -, h3⟩ := C99_distance hsq o d (a o) (a d)
    (fun i => ⟨(he o ho).2.1 i, ha o ho i⟩) fun i => ⟨(he d hd).2.1 i, ha d hd i⟩
  have hm := hthr o ho d hd hne
  have hx : Clusterable.sqDist (ClusterableOf.makePoint (e o)) (e d) = ((sqDistQ (a o) (a d) : ℚ) : ℝ) := by
    rw [ClusterLaws.sqDist_eq, ClusterLaws.makePoint_x, ClusterLaws.makePoint_y,
      ClusterLaws.makePoint_v, ClusterLaws.makePoint_yaw, ClusterLaws.makePoint_yawRate,
      (he o ho).2.2, (he d hd).2.2, sqDistQ]
    push_cast
    rfl
  show FP.gt (.fin thr) (SqDistF.sqDist sq (ClusterableOf.makePoint o) d) =
    decide (Clusterable.sqDist (ClusterableOf.makePoint (e o)) (e d) < thr)
  rw [h1, hx]
  show decide (t < thr) = _
  rw [decide_eq_decide, Rat.cast_lt]
  generalize sqDistQ (a o) (a d) = D at *
  obtain ⟨g1, g2⟩ := abs_le.1 h3
  rcases le_total 0 (D - thr) with h | h
  · rw [abs_of_nonneg h] at hm
    constructor <;> intro _ <;> linarith
  · rw [abs_of_nonpos h] at hm
    constructor <;> intro _ <;> linarith

/-- detections on the x axis, heading 0, with the headings held as the angles themselves -/
def onAxisF (name : Fin 256) (x : FP) : DynObj (CtrvStateF ⟨FP, id, id, id, id⟩) Unit :=
  ⟨0, ⟨x, .fin 0, .fin 0, FP.fin 0, .fin 0⟩, (), ⟨[name]⟩, .unknown⟩

theorem represents_onAxis (n : Fin 256) (x : ℚ) :
    Represents (onAxisF n (.fin x)) (onAxis n x) ![x, 0, 0, 0, 0] := by
  refine ⟨rfl, fun i => ?_, ?_⟩
  · fin_cases i
    · rfl
    · rfl
    · rfl
    · show getAngleF (.fin 0) = .fin 0
      decide +kernel
    · rfl
  · simp [Readable.reading, onAxis, Angle.getAngle_ofRad_of_range ⟨le_refl (0 : ℝ), Real.two_pi_pos⟩]

/-- three detections 1 m and 9 m apart, threshold 4: the hypotheses of `C99_clusters` are met -/
example : (clusterDetectionsF (fun x => FP.mul binary64 x x)
      [onAxisF 1 (.fin 0), onAxisF 2 (.fin 1), onAxisF 3 (.fin 10)] (.fin 4)).length =
    (clusterDetectionsDefault [onAxis 1 0, onAxis 2 1, onAxis 3 10] 4).length := by
  have := congrArg List.length (C99_clusters squares_mul
    [onAxisF 1 (.fin 0), onAxisF 2 (.fin 1), onAxisF 3 (.fin 10)] (by decide)
    (fun d => if d.uuid = ⟨[1]⟩ then onAxis 1 (0 : ℚ) else if d.uuid = ⟨[2]⟩ then onAxis 2 (1 : ℚ)
      else onAxis 3 (10 : ℚ))
    (fun d => if d.uuid = ⟨[1]⟩ then ![0, 0, 0, 0, 0] else if d.uuid = ⟨[2]⟩ then ![1, 0, 0, 0, 0]
      else ![10, 0, 0, 0, 0]) ?_ ?_ 4 ?_)
  · simpa [onAxisF] using this
  · intro d hd
    simp only [List.mem_cons, List.not_mem_nil, or_false] at hd
    rcases hd with rfl | rfl | rfl <;> exact represents_onAxis _ _
  · intro d hd i
    simp only [List.mem_cons, List.not_mem_nil, or_false] at hd
    rcases hd with rfl | rfl | rfl <;> fin_cases i <;> simp [onAxisF] <;> norm_num
  · intro o ho d hd hne
    simp only [List.mem_cons, List.not_mem_nil, or_false] at ho hd
    rcases ho with rfl | rfl | rfl <;> rcases hd with rfl | rfl | rfl <;>
      first | exact absurd rfl hne | (simp [onAxisF, sqDistQ]; norm_num)

/-- a computed squared distance that involves a number that is not finite is infinite or NaN -/
theorem distance_nonfinite {sq : FP → FP} (hsq : Squares sq) (o d : δ)
    (h : (∃ i, (ReadableF.reading o i).NotFin) ∨ ∃ i, (ReadableF.reading d i).NotFin) (thr : FP) :
    FP.gt thr (SqDistF.sqDist sq (ClusterableOf.makePoint o) d) = false := by
  rw [ClusterLawsF.sqDist_eq]
  simp only [ClusterLawsF.makePoint_eq]
  have hs : ∀ x : FP, x.NotFin → (sq x).NotFin := by
    intro x hx
    cases x with
    | fin q => exact absurd rfl (hx q)
    | nan => rw [hsq.nan]; intro q; simp
    | inf s => rw [hsq.inf]; intro q; simp
  have hi : ∃ i, (sq (FP.sub binary64 (ReadableF.reading o i) (ReadableF.reading d i))).NotFin := by
    rcases h with ⟨i, h⟩ | ⟨i, h⟩
    · exact ⟨i, hs _ (notFin_sub_left h)⟩
    · exact ⟨i, hs _ (notFin_sub h)⟩
  have hn : ∀ i, (sq (FP.sub binary64 (ReadableF.reading o i) (ReadableF.reading d i))).NotNeg :=
    fun i => hsq.notNeg _
  have key : ∀ x : FP, x.NotFin → x.NotNeg → FP.gt thr x = false := by
    intro x h1 h2
    cases x with
    | fin q => exact absurd rfl (h1 q)
    | nan => cases thr <;> rfl
    | inf s =>
      cases s with
      | true => exact absurd rfl h2.1
      | false =>
        cases thr with
        | inf s => cases s <;> rfl
        | _ => rfl
  refine key _ ?_ ?_
  · obtain ⟨i, hi⟩ := hi
    fin_cases i
    · exact notFin_add (.inl (notFin_add (.inl (notFin_add (.inl (notFin_add (.inl
        (notFin_add (.inr hi)))))))))
    · exact notFin_add (.inl (notFin_add (.inl (notFin_add (.inl (notFin_add (.inr hi)))))))
    · exact notFin_add (.inl (notFin_add (.inl (notFin_add (.inr hi)))))
    · exact notFin_add (.inl (notFin_add (.inr hi)))
    · exact notFin_add (.inr hi)
  · exact notNeg_add (notNeg_add (notNeg_add (notNeg_add (notNeg_add notNeg_zero (hn 0))
      (hn 1)) (hn 2)) (hn 3)) (hn 4)

/-- C99: a detection with a coordinate that is NaN or infinite is alone in its cluster, for every
threshold. -/
theorem C99_nonfinite_alone {sq : FP → FP} (hsq : Squares sq) (ds : List δ)
    (hn : (ds.map Identified.id).Nodup) (thr : FP) (d : δ) (hd : d ∈ ds)
    (hi : ∃ i, ∀ q, ReadableF.reading d i ≠ .fin q) :
    ∃ c ∈ clusterDetectionsF sq ds thr, c.detections.entries = [(Identified.id d, d)] :=
  cluster_alone _ ds hn hd (fun o _ => distance_nonfinite hsq o d (.inr hi) thr)
    fun x _ => distance_nonfinite hsq d x (.inl hi) thr

/-- two detections at +∞ with the threshold +∞: two clusters -/
example : ∃ c ∈ clusterDetectionsF (fun x => FP.mul binary64 x x)
    [onAxisF 1 (.inf false), onAxisF 2 (.inf false)] (.inf false),
    c.detections.entries = [(⟨[1]⟩, onAxisF 1 (.inf false))] :=
  C99_nonfinite_alone squares_mul [onAxisF 1 (.inf false), onAxisF 2 (.inf false)] (by decide) _
    (onAxisF 1 (.inf false)) (by simp) ⟨0, fun q => by simp [onAxisF, ReadableF.reading]⟩

/-- C99: with a threshold that is NaN, negative infinity or not positive every detection is a
cluster of its own; with the threshold +∞ detections with finite coordinates (below 2^99) are a
single cluster. -/
theorem C99_threshold {sq : FP → FP} (hsq : Squares sq) (ds : List δ) :
    (∀ thr, (thr = .nan ∨ thr = .inf true ∨ ∃ t ≤ 0, thr = .fin t) →
      (clusterDetectionsF sq ds thr).length = ds.length ∧
      ∀ c ∈ clusterDetectionsF sq ds thr, c.detections.entries.length = 1) ∧
    ((∀ d ∈ ds, ∀ i, ∃ q : ℚ, ReadableF.reading d i = .fin q ∧ |q| ≤ 2 ^ 99) →
      (clusterDetectionsF sq ds (.inf false)).length = min 1 ds.length) := by
  constructor
  · intro thr hthr
    have : (fun (p : PointF m) (d : δ) => FP.gt thr (SqDistF.sqDist sq p d)) = fun _ _ => false := by
      funext p d
      rw [ClusterLawsF.sqDist_eq]
      have hn : ∀ i, (sq (FP.sub binary64 (p.coord i) (ReadableF.reading d i))).NotNeg :=
        fun i => hsq.notNeg _
      obtain ⟨h1, h2⟩ := notNeg_add (f := binary64) (notNeg_add (f := binary64) (notNeg_add (f := binary64)
        (notNeg_add (f := binary64) (notNeg_add (f := binary64) notNeg_zero (hn 0)) (hn 1)) (hn 2)) (hn 3)) (hn 4)
      revert h1 h2
      generalize FP.add binary64 _ _ = x
      intro h1 h2
      rcases hthr with rfl | rfl | ⟨t, ht, rfl⟩
      · rfl
      · cases x <;> rfl
      · cases x with
        | nan => rfl
        | inf s => cases s with
          | true => exact absurd rfl h1
          | false => rfl
        | fin q => exact decide_eq_false (not_lt.2 (ht.trans (h2 q rfl)))
    unfold clusterDetectionsF
    rw [this]
    exact ⟨(C59_extremes ds).1, (C59_extremes ds).2.1⟩
  · intro h
    rcases List.eq_nil_or_concat ds with rfl | ⟨l, o, rfl⟩
    · simp [clusterDetectionsF, clusterDetections_nil]
    · rw [List.concat_eq_append] at *
      unfold clusterDetectionsF
      rw [clusterDetections_concat]
      have hf : l.filter (fun d => !FP.gt (.inf false) (SqDistF.sqDist sq (ClusterableOf.makePoint o) d)) = [] := by
        rw [List.filter_eq_nil_iff]
        intro d hd
        choose a ha using h o (by simp)
        choose b hb using h d (List.mem_append_left _ hd)
        obtain ⟨t, ht, -⟩ := C99_distance hsq o d a b ha hb
        rw [ht]
        simp [FP.gt]
      rw [hf, clusterDetections_nil]
      simp

/-! ### The centroid -/

/-- C99: after any history of at most 2^20 calls in which the readings of a coordinate (other than
the heading) are at most M in absolute value, a non-empty cluster returns a finite number for this
coordinate.  It differs from the number of the exact model (`C60_all_histories`: the sum over
members and ghosts, divided by the number n of members) by at most k² M / (n 2^51), where k is the
number of calls. -/
theorem C99_centroid (h : List (ClusterOp δ)) (i : Fin 5) (hi : i ≠ 3) (r : δ → ℚ) (M : ℚ) (hM : 1 ≤ M)
    (hM2 : M ≤ 2 ^ 100) (hl : h.length ≤ 2 ^ 20)
    (hr : ∀ d, ClusterOp.add d ∈ h → ReadableF.reading d i = .fin (r d) ∧ |r d| ≤ M)
    (hne : kept h ≠ []) :
    ∃ p q, (ClusterOf.run h : ClusterOf (PointF m) δ).centroid = .ok p ∧ p.coord i = .fin q ∧
      |q - (((kept h).map r).sum + ((ghosts h).map r).sum) / (kept h).length| ≤
        (h.length : ℚ) ^ 2 * M / ((kept h).length * 2 ^ 51) := by
  have hh := ClusterOf.run_kept (P := PointF m) h
  obtain ⟨S, h1, h2, h3⟩ := run_sum (m := m) h hi hM hM2 hl hr
  rw [ClusterOf.centroid_of_holds hh, if_neg hne]
  have hn0 := List.length_pos_of_ne_nil hne
  have hnk := kept_length_le h
  obtain ⟨q, h4, h5⟩ := mean_step h2 h3 hM hM2 hl hn0 hnk
  exact ⟨_, q, rfl, by rw [divide_coord _ _ hi, h1, h4], h5⟩

/-- three detections added, one removed: two members, the bound is 16 · 8 / 2^52 -/
example : ∃ p q, (ClusterOf.run [.remove ⟨[1]⟩, .add (onAxisF 3 (.fin 8)), .add (onAxisF 2 (.fin 7)),
    .add (onAxisF 1 (.fin 5))]).centroid = .ok p ∧ p.coord 0 = .fin q ∧ |q - 15 / 2| ≤ 16 * 8 / 2 ^ 52 := by
  obtain ⟨p, q, h1, h2, h3⟩ := C99_centroid [.remove ⟨[1]⟩, .add (onAxisF 3 (.fin 8)),
    .add (onAxisF 2 (.fin 7)), .add (onAxisF 1 (.fin 5))] 0 (by decide)
    (fun d => match d.state.x with | .fin q => q | _ => 0) 8 (by norm_num) (by norm_num) (by norm_num)
    (by
      intro d hd
      simp only [List.mem_cons, reduceCtorEq, ClusterOp.add.injEq, List.not_mem_nil, or_false, false_or] at hd
      rcases hd with rfl | rfl | rfl <;> exact ⟨rfl, by norm_num [onAxisF]⟩)
    (by decide)
  refine ⟨p, q, h1, h2, ?_⟩
  have e : kept [.remove ⟨[1]⟩, .add (onAxisF 3 (.fin 8)),
      .add (onAxisF 2 (.fin 7)), .add (onAxisF 1 (.fin 5))] = [onAxisF 3 (.fin 8), onAxisF 2 (.fin 7)] := by
    simp [kept, onAxisF, Identified.id]
  have e' : ghosts [.remove ⟨[1]⟩, .add (onAxisF 3 (.fin 8)),
      .add (onAxisF 2 (.fin 7)), .add (onAxisF 1 (.fin 5))] = [] := by
    simp [ghosts, kept, onAxisF, Identified.id]
  rw [e, e'] at h3
  simp only [onAxisF, List.map_cons, List.map_nil, List.sum_cons, List.sum_nil, List.length_cons,
    List.length_nil] at h3
  norm_num at h3 ⊢
  exact h3

/-- C99: the centroid of a cluster of n detections returned by `cluster_detections` is, in position,
speed and yaw rate, the mean of the members up to n M / 2^51. -/
theorem C99_clusters_centroid (within : PointF m → δ → Bool) (ds : List δ)
    (hn : (ds.map Identified.id).Nodup) (hlen : ds.length ≤ 2 ^ 20) (i : Fin 5) (hi : i ≠ 3)
    (r : δ → ℚ) (M : ℚ) (hM : 1 ≤ M) (hM2 : M ≤ 2 ^ 100)
    (hr : ∀ d ∈ ds, ReadableF.reading d i = .fin (r d) ∧ |r d| ≤ M) (c : ClusterOf (PointF m) δ)
    (hc : c ∈ clusterDetections within ds) :
    ∃ p q, c.centroid = .ok p ∧ p.coord i = .fin q ∧
      |q - (c.detections.entries.map fun x => r x.2).sum / c.detections.entries.length| ≤
        c.detections.entries.length * M / 2 ^ 51 := by
  have key : ∃ ms : List δ, ms ≠ [] ∧ (∀ d ∈ ms, d ∈ ds) ∧ ms.length ≤ ds.length ∧
      (ms.map Identified.id).Nodup ∧ c = ClusterOf.run (ms.map .add) := by
    induction ds using cluster_induction within with
    | h0 => simp [clusterDetections_nil] at hc
    | h1 l o ih =>
      rw [clusterDetections_concat] at hc
      have hn' := nodup_rest (within := within) hn
      have fl := List.length_filter_le (fun d => !within (ClusterableOf.makePoint o) d) l
      have sub : ∀ d ∈ l.filter (fun d => !within (ClusterableOf.makePoint o) d), d ∈ l ++ [o] :=
        fun d hd => List.mem_append_left _ (List.mem_filter.1 hd).1
      rcases List.mem_cons.1 hc with rfl | hc
      · have hm := (ClusterOf.first_members within l o hn).nodup
        have fl' := List.length_filter_le (within (ClusterableOf.makePoint o)) l
        refine ⟨(l.filter (within (ClusterableOf.makePoint o))).reverse ++ [o], by simp, ?_, ?_, hm, ?_⟩
        · intro d hd
          simp only [List.mem_append, List.mem_reverse, List.mem_filter, List.mem_singleton] at hd ⊢
          tauto
        · simp only [List.length_append, List.length_reverse, List.length_singleton]
          omega
        · have fold : ∀ (l' ms : List δ) (c : ClusterOf (PointF m) δ), c = ClusterOf.run (ms.map .add) →
              l'.foldl ClusterOf.add c = ClusterOf.run ((l'.reverse ++ ms).map .add) := by
            intro l'
            induction l' with
            | nil => exact fun _ _ h => h
            | cons d l' ih =>
              intro ms c h
              rw [List.foldl_cons, ih (d :: ms) _ (by rw [h]; rfl)]
              simp
          exact fold _ [o] _ rfl
      · obtain ⟨ms, g1, g2, g3, g4⟩ := ih hn' (by simp at hlen; omega) (fun d hd => hr d (sub d hd)) hc
        exact ⟨ms, g1, fun d hd => sub d (g2 d hd), by simp; omega, g4⟩
  obtain ⟨ms, hne, hms, hml, hnd, rfl⟩ := key
  have hk : ∀ ms : List δ, (ms.map Identified.id).Nodup →
      kept (ms.map .add) = ms ∧ ghosts (ms.map ClusterOp.add) = [] := by
    intro ms
    induction ms with
    | nil => exact fun _ => ⟨rfl, rfl⟩
    | cons d ms ih =>
      intro h
      rw [List.map_cons, List.nodup_cons] at h
      obtain ⟨i1, i2⟩ := ih h.2
      have hd : ¬ (kept (ms.map ClusterOp.add)).any (fun e => Identified.id e = Identified.id d) = true := by
        rw [i1, List.any_eq_true]
        rintro ⟨e, he, hee⟩
        exact h.1 (of_decide_eq_true hee ▸ List.mem_map_of_mem he)
      exact ⟨(if_neg hd).trans (by rw [i1]), (if_neg hd).trans i2⟩
  obtain ⟨k1, k2⟩ := hk ms hnd
  have hh := ClusterOf.run_kept (P := PointF m) (ms.map ClusterOp.add)
  rw [k1] at hh
  obtain ⟨p, q, h1, h2, h3⟩ := C99_centroid (m := m) (ms.map ClusterOp.add) i hi r M hM hM2
    (by simp; omega) (by
      intro d hd
      obtain ⟨e, he, h⟩ := List.mem_map.1 hd
      obtain rfl : e = d := by simpa using h
      exact hr e (hms e he)) (by rw [k1]; exact hne)
  refine ⟨p, q, h1, h2, ?_⟩
  rw [k1, k2] at h3
  have hsum : ((ClusterOf.run (ms.map .add) : ClusterOf (PointF m) δ).detections.entries.map
      fun x => r x.2).sum = (ms.map r).sum := by
    rw [(hh.map fun x => r x.2).sum_eq, List.map_map]
    rfl
  rw [hsum, hh.length]
  simp only [List.map_nil, List.sum_nil, add_zero, List.length_map] at h3
  refine h3.trans (le_of_eq ?_)
  have : (0 : ℚ) < ms.length := by exact_mod_cast List.length_pos_of_ne_nil hne
  field_simp

/-- C99: the heading.  With an accurate library, after any history of k calls (headings at most 7 in
absolute value) the heading of the centroid is g / n up to multiples of 2π, where n is the number of
members and g in [0, 2π) is the sum of the headings of members and ghosts up to multiples of 2π.  The
errors are (k + 1) / 2^47 for g and 2^-47 for the division. -/
theorem C99_heading (hm : AccuratePhase m) (h : List (ClusterOp δ)) (r : δ → ℚ)
    (hr : ∀ d, ClusterOp.add d ∈ h → ReadableF.reading d 3 = .fin (r d) ∧ |r d| ≤ 7)
    (hl : h.length ≤ 2 ^ 20) (hne : kept h ≠ []) :
    ∃ p, ∃ g q : ℚ, (ClusterOf.run h : ClusterOf (PointF m) δ).centroid = .ok p ∧ p.coord 3 = .fin q ∧
      0 ≤ q ∧ (q : ℝ) < 2 * Real.pi ∧ 0 ≤ g ∧ (g : ℝ) < 2 * Real.pi ∧
      NearMod2Pi g ((((kept h).map r).sum + ((ghosts h).map r).sum : ℚ) : ℝ) ((h.length + 1) / 2 ^ 47) ∧
      NearMod2Pi q (g / (kept h).length) (1 / 2 ^ 47) := by
  have hh := ClusterOf.run_kept (P := PointF m) h
  obtain ⟨g, g0, g1, g2, g3⟩ := run_heading hm h hr
  rw [ClusterOf.centroid_of_holds hh, if_neg hne]
  have hn0 : 0 < (kept h).length := List.length_pos_of_ne_nil hne
  have hn1 : (1 : ℚ) ≤ (kept h).length := by exact_mod_cast hn0
  have hg7 : g ≤ 7 := by
    have := Real.pi_lt_d2
    have : (g : ℝ) ≤ 7 := by linarith
    exact_mod_cast this
  obtain ⟨q, q0, q1, q2, q3⟩ := getAngle_ofRad_near hm (y := g / (kept h).length) (by
    rw [abs_of_nonneg (div_nonneg g1 (by linarith))]
    exact (div_le_self g1 hn1).trans (by linarith))
  refine ⟨_, g, q, rfl, ?_, q1, q2, g1, g2, g3, ?_⟩
  · show m.getAngle (m.ofRad (FP.div binary64 (m.getAngle (ClusterOf.run h : ClusterOf (PointF m) δ).stateSum.yaw)
      (FP.ofRat binary64 (kept h).length))) = _
    have hkl := (kept_length_le h).trans hl
    rw [g0, b64_nat (hkl.trans (by norm_num)), show FP.div binary64 (.fin g) (.fin ((kept h).length : ℚ)) =
      FP.ofRat binary64 (g / (kept h).length) from if_neg (by linarith), q0]
  · push_cast at q3
    exact q3.mono (by norm_num)

/-- C99: with an accurate library the centroid of two detections with one and the same heading q
between 3.2 and 6.2 has the opposite heading, up to 2^-44. -/
theorem C99_heading_opposite (hm : AccuratePhase m) (a b : δ) (hab : Identified.id a ≠ Identified.id b)
    (q : ℚ) (ha : ReadableF.reading a 3 = .fin q) (hb : ReadableF.reading b 3 = .fin q)
    (h1 : 32 / 10 ≤ q) (h2 : q ≤ 62 / 10) :
    ∃ p, ∃ c : ℚ, (ClusterOf.run [.add b, .add a] : ClusterOf (PointF m) δ).centroid = .ok p ∧
      p.coord 3 = .fin c ∧ |(c : ℝ) - (q - Real.pi)| ≤ 1 / 2 ^ 44 := by
  have hk : kept [.add b, .add a] = [b, a] := by simp [kept, hab]
  have hg : ghosts [.add b, .add a] = [] := by simp [ghosts, kept, hab]
  obtain ⟨p, g, c, e1, e2, c1, c2, g1, g2, g3, g4⟩ := C99_heading hm [.add b, .add a] (fun _ => q)
    (by
      intro d hd
      simp only [List.mem_cons, ClusterOp.add.injEq, List.not_mem_nil, or_false] at hd
      have : |q| ≤ 7 := by rw [abs_of_nonneg] <;> linarith
      rcases hd with rfl | rfl
      · exact ⟨hb, this⟩
      · exact ⟨ha, this⟩) (by norm_num) (by rw [hk]; simp)
  refine ⟨p, c, e1, e2, ?_⟩
  rw [hk, hg] at g3
  rw [hk] at g4
  simp only [List.map_cons, List.map_nil, List.sum_cons, List.sum_nil, add_zero, List.length_cons,
    List.length_nil] at g3 g4
  have hpi := Real.pi_gt_d2
  have hpi' := Real.pi_lt_d2
  have h1' : (32 / 10 : ℝ) ≤ q := by
    have := (Rat.cast_le (K := ℝ)).2 h1
    push_cast at this
    exact this
  have h2' : (q : ℝ) ≤ 62 / 10 := by
    have := (Rat.cast_le (K := ℝ)).2 h2
    push_cast at this
    exact this
  have g1' : (0 : ℝ) ≤ g := by exact_mod_cast g1
  have c1' : (0 : ℝ) ≤ c := by exact_mod_cast c1
  obtain ⟨k, hk3⟩ := g3
  obtain ⟨j, hj⟩ := g4
  push_cast at hk3 hj
  obtain ⟨a1, a2⟩ := abs_le.1 hk3
  obtain ⟨b1, b2⟩ := abs_le.1 hj
  clear hk3 hj hk hg g1 c1 h1 h2 e1 e2 ha hb hm
  generalize (q : ℝ) = Q at *
  generalize (g : ℝ) = G at *
  generalize (c : ℝ) = C at *
  have tp := Real.two_pi_pos.le
  have hk1 : k = -1 := by
    have l1 : -2 < k := by
      by_contra hc
      have : (k : ℝ) ≤ -2 := by exact_mod_cast not_lt.1 hc
      have := mul_le_mul_of_nonneg_right this tp
      norm_num at *
      linarith
    have l2 : k < 0 := by
      by_contra hc
      have : (0 : ℝ) ≤ k := by exact_mod_cast not_lt.1 hc
      have := mul_le_mul_of_nonneg_right this tp
      norm_num at *
      linarith
    omega
  subst hk1
  have hj0 : j = 0 := by
    have l1 : -1 < j := by
      by_contra hc
      have : (j : ℝ) ≤ -1 := by exact_mod_cast not_lt.1 hc
      have := mul_le_mul_of_nonneg_right this tp
      norm_num at *
      linarith
    have l2 : j < 1 := by
      by_contra hc
      have : (1 : ℝ) ≤ j := by exact_mod_cast not_lt.1 hc
      have := mul_le_mul_of_nonneg_right this tp
      norm_num at *
      linarith
    omega
  subst hj0
  norm_num at *
  rw [abs_le]
  constructor <;> linarith

/-- two detections heading 4 rad, with an accurate library: the hypotheses are met -/
example : ∃ m : Libm, AccuratePhase m ∧ ∃ (a b : DynObj (CtrvStateF m) Unit) (q : ℚ),
    Identified.id a ≠ Identified.id b ∧ ReadableF.reading a 3 = .fin q ∧ ReadableF.reading b 3 = .fin q ∧
    32 / 10 ≤ q ∧ q ≤ 62 / 10 := by
  obtain ⟨m, -, -, hm, -⟩ := exists_libm
  obtain ⟨g, g0, g1, g2, k, hk⟩ := getAngle_ofRad_near hm (y := 4) (by norm_num)
  rw [show FP.ofRat binary64 4 = .fin 4 by decide +kernel] at g0
  have hpi := Real.pi_gt_d2
  have hpi' := Real.pi_lt_d2
  have g1' : (0 : ℝ) ≤ g := by exact_mod_cast g1
  have tp := Real.two_pi_pos.le
  obtain ⟨a1, a2⟩ := abs_le.1 hk
  push_cast at a1 a2
  have hk0 : k = 0 := by
    have l1 : -1 < k := by
      by_contra hc
      have : (k : ℝ) ≤ -1 := by exact_mod_cast not_lt.1 hc
      have := mul_le_mul_of_nonneg_right this tp
      generalize (g : ℝ) = G at *
      norm_num at *
      linarith
    have l2 : k < 1 := by
      by_contra hc
      have : (1 : ℝ) ≤ k := by exact_mod_cast not_lt.1 hc
      have := mul_le_mul_of_nonneg_right this tp
      generalize (g : ℝ) = G at *
      norm_num at *
      linarith
    omega
  subst hk0
  rw [Int.cast_zero, zero_mul, sub_zero] at a1 a2
  refine ⟨m, hm, ⟨0, ⟨.fin 0, .fin 0, .fin 0, m.ofRad (.fin 4), .fin 0⟩, (), ⟨[1]⟩, .unknown⟩,
    ⟨0, ⟨.fin 0, .fin 0, .fin 0, m.ofRad (.fin 4), .fin 0⟩, (), ⟨[2]⟩, .unknown⟩, g, by simp [Identified.id], g0, g0, ?_, ?_⟩
  · rw [← Rat.cast_le (K := ℝ)]
    push_cast
    generalize (g : ℝ) = G at *
    norm_num at *
    linarith
  · rw [← Rat.cast_le (K := ℝ)]
    push_cast
    generalize (g : ℝ) = G at *
    norm_num at *
    linarith

/-- C99: removing a detection does not restore the sum.  A detection at x = 2^60 is added, then one
at x = 1, then the first is removed: the centroid of the remaining one is reported at x = 0. -/
theorem C99_remove_forgets : ∃ p, (ClusterOf.run [.remove ⟨[1]⟩, .add (onAxisF 2 (.fin 1)),
      .add (onAxisF 1 (.fin (2 ^ 60)))]).centroid = .ok p ∧
    (ClusterOf.run [.remove ⟨[1]⟩, .add (onAxisF 2 (.fin 1)),
      .add (onAxisF 1 (.fin (2 ^ 60)))]).detections.entries = [(⟨[2]⟩, onAxisF 2 (.fin 1))] ∧
    p.x = .fin 0 := by
  have hh := ClusterOf.run_kept (P := PointF ⟨FP, id, id, id, id⟩) [.remove ⟨[1]⟩, .add (onAxisF 2 (.fin 1)),
      .add (onAxisF 1 (.fin (2 ^ 60)))]
  have e : kept [.remove ⟨[1]⟩, .add (onAxisF 2 (.fin 1)),
      .add (onAxisF 1 (.fin (2 ^ 60)))] = [onAxisF 2 (.fin 1)] := by
    simp [kept, onAxisF, Identified.id]
  rw [e] at hh
  refine ⟨_, (ClusterOf.centroid_of_holds hh).trans (if_neg (by simp)), List.perm_singleton.1 hh, ?_⟩
  show FP.div binary64 (FP.sub binary64 (FP.add binary64 (FP.add binary64 (.fin 0) (.fin (2 ^ 60))) (.fin 1))
    (.fin (2 ^ 60))) (FP.ofRat binary64 ((1 : ℕ) : ℚ)) = .fin 0
  decide +kernel

/-- C99: once a detection with a NaN or infinite coordinate (other than the heading) has been added,
this coordinate of the centroid is never finite again, whatever is removed, and even after
`clear`. -/
theorem C99_poison (h : List (ClusterOp δ)) (i : Fin 5) (hi : i ≠ 3) (d : δ) (hd : ClusterOp.add d ∈ h)
    (hr : ∀ q, ReadableF.reading d i ≠ .fin q) (p : PointF m)
    (hp : (ClusterOf.run h : ClusterOf (PointF m) δ).centroid = .ok p) (q : ℚ) : p.coord i ≠ .fin q := by
  have hh := ClusterOf.run_kept (P := PointF m) h
  rw [ClusterOf.centroid_of_holds hh] at hp
  split at hp
  · cases hp
  · cases hp
    rw [divide_coord _ _ hi]
    exact notFin_div (run_notFin h hi hd hr) q

/-- a detection at NaN, removed again, then `clear`, then a proper detection -/
example : ∃ p, (ClusterOf.run [.add (onAxisF 2 (.fin 1)), .clear, .remove ⟨[1]⟩,
    .add (onAxisF 1 .nan)]).centroid = .ok p ∧ ∀ q, p.x ≠ .fin q := by
  have hh := ClusterOf.run_kept (P := PointF ⟨FP, id, id, id, id⟩) [.add (onAxisF 2 (.fin 1)), .clear,
    .remove ⟨[1]⟩, .add (onAxisF 1 .nan)]
  have hne : kept [.add (onAxisF 2 (.fin 1)), .clear, .remove ⟨[1]⟩, .add (onAxisF 1 .nan)] ≠ [] := by
    simp [kept]
  have hc := (ClusterOf.centroid_of_holds hh).trans (if_neg hne)
  exact ⟨_, hc, fun q => C99_poison _ 0 (by decide) (onAxisF 1 .nan) (by simp)
    (fun q => by simp [onAxisF, ReadableF.reading]) _ hc q⟩

end Mot.Props
