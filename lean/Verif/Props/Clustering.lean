import Verif.Proofs.Clustering
import Mathlib.Analysis.Real.Pi.Bounds
import Mathlib.Analysis.InnerProductSpace.PiL2
/-!
# Properties of clustering (C58-C62, C72)
-/

namespace Mot.Props

open Mot Real

section
variable {P δ : Type} [PointOps P] [ClusterableOf P δ] [Identified δ] [ClusterIds δ]

/-- `d` is in cluster `c` under its own UUID -/
def In (d : δ) (c : ClusterOf P δ) : Prop := (Identified.id d, d) ∈ c.detections.entries

omit [PointOps P] [ClusterableOf P δ] [ClusterIds δ] in
theorem in_iff {c : ClusterOf P δ} {ms : List δ} (h : c.Holds ms) (d : δ) : In d c ↔ d ∈ ms := by
  unfold In
  rw [h.mem_iff, List.mem_map]
  constructor
  · rintro ⟨e, he, h⟩
    rw [Prod.mk.injEq] at h
    exact h.2 ▸ he
  · exact fun h => ⟨d, h, rfl⟩

/-! ## C58 -/

/-- C58: for detections with distinct UUIDs the entries of all clusters together are the
detections, each under its own UUID and once, and no cluster is empty. -/
theorem C58_partition (within : P → δ → Bool) (ds : List δ)
    (hn : (ds.map Identified.id).Nodup) :
    ((clusterDetections within ds).flatMap fun c => c.detections.entries).Perm
      (ds.map fun d => (Identified.id d, d)) ∧
    ∀ c ∈ clusterDetections within ds, c.isEmpty = false := by
  induction ds using cluster_induction within with
  | h0 => simp [clusterDetections_nil]
  | h1 l o ih =>
    obtain ⟨ih1, ih2⟩ := ih (nodup_rest hn)
    have h1 := ClusterOf.first_members within l o hn
    rw [clusterDetections_concat]
    constructor
    · rw [List.flatMap_cons]
      refine (h1.append ih1).trans ?_
      rw [← List.map_append]
      refine List.Perm.map _ ?_
      rw [List.append_assoc]
      refine ((List.reverse_perm _).append_right _).trans ?_
      refine (List.Perm.append_left _ (List.perm_append_comm)).trans ?_
      rw [← List.append_assoc]
      refine List.Perm.append_right _ ?_
      exact List.filter_append_perm _ l
    · intro c hc
      rcases List.mem_cons.1 hc with rfl | hc
      · simp [ClusterOf.isEmpty, h1.length]
      · exact ih2 c hc

/-- C58: every detection is in exactly one of the clusters. -/
theorem C58_exactly_one (within : P → δ → Bool) (ds : List δ)
    (hn : (ds.map Identified.id).Nodup) (d : δ) (hd : d ∈ ds) :
    ∃! i : Fin (clusterDetections within ds).length, In d ((clusterDetections within ds).get i) := by
  obtain ⟨hp, -⟩ := C58_partition within ds hn
  have hmem : (Identified.id d, d) ∈ (clusterDetections within ds).flatMap fun c => c.detections.entries :=
    hp.mem_iff.2 (List.mem_map.2 ⟨d, hd, rfl⟩)
  obtain ⟨c, hc, hdc⟩ := List.mem_flatMap.1 hmem
  obtain ⟨i, hi⟩ := List.get_of_mem hc
  refine ⟨i, by show _ ∈ _; rw [hi]; exact hdc, fun j hj => ?_⟩
  have hnd : ((clusterDetections within ds).flatMap fun c => c.detections.entries).Nodup := by
    rw [hp.nodup_iff]
    refine List.Nodup.of_map (f := Prod.fst) ?_
    rw [List.map_map]
    exact hn
  rw [List.nodup_flatMap] at hnd
  by_contra hne
  have hdis := hnd.2
  rcases lt_or_gt_of_ne hne with h | h
  · have := List.pairwise_iff_get.1 hdis j i h
    exact this hj (by rw [hi]; exact hdc)
  · have := List.pairwise_iff_get.1 hdis i j h
    exact this (by rw [hi]; exact hdc) hj

/-- C58, without any assumption on UUIDs: no UUID is lost and nothing foreign appears. -/
theorem C58_any_uuids (within : P → δ → Bool) (ds : List δ) :
    (∀ d ∈ ds, ∃ c ∈ clusterDetections within ds, (c.detections.find? (Identified.id d)).isSome) ∧
    (∀ c ∈ clusterDetections within ds, ∀ u d, c.detections.find? u = some d →
      d ∈ ds ∧ Identified.id d = u) := by
  have fold : ∀ (l : List δ) (c : ClusterOf P δ),
      (∀ u, (c.detections.find? u).isSome → ((l.foldl ClusterOf.add c).detections.find? u).isSome) ∧
      (∀ d ∈ l, ((l.foldl ClusterOf.add c).detections.find? (Identified.id d)).isSome) ∧
      (∀ u d, (l.foldl ClusterOf.add c).detections.find? u = some d →
        c.detections.find? u = some d ∨ (d ∈ l ∧ Identified.id d = u)) := by
    intro l
    induction l with
    | nil => intro c; exact ⟨fun _ h => h, by simp, fun _ _ h => .inl h⟩
    | cons e l ih =>
      intro c
      obtain ⟨i1, i2, i3⟩ := ih (c.add e)
      have hadd : ∀ u, (c.add e).detections.find? u = if u = Identified.id e then
          (if (c.detections.find? u).isSome then c.detections.find? u else some e)
          else c.detections.find? u := by
        intro u
        simp only [ClusterOf.add, ClusterIds.uuid_eq, UMap.emplace]
        split
        · rename_i h
          rw [UMap.find?_set]
          by_cases hu : u = Identified.id e
          · subst hu; simp [h]
          · simp [hu]
        · rename_i h
          by_cases hu : u = Identified.id e
          · subst hu
            simp [Option.isSome_iff_ne_none.2 h]
          · simp [hu]
      refine ⟨fun u hu => i1 u ?_, fun d hd => ?_, fun u d h => ?_⟩
      · rw [hadd]
        by_cases h1 : u = Identified.id e
        · rw [if_pos h1, if_pos hu]; exact hu
        · rw [if_neg h1]; exact hu
      · rcases List.mem_cons.1 hd with rfl | hd
        · refine i1 _ ?_
          rw [hadd, if_pos rfl]
          split
          · assumption
          · rfl
        · exact i2 d hd
      · rcases i3 u d h with h | ⟨h1, h2⟩
        · rw [hadd] at h
          by_cases h1 : u = Identified.id e
          · rw [if_pos h1] at h
            split at h
            · exact .inl h
            · cases h
              exact .inr ⟨List.mem_cons_self, h1.symm⟩
          · rw [if_neg h1] at h; exact .inl h
        · exact .inr ⟨List.mem_cons_of_mem _ h1, h2⟩
  induction ds using cluster_induction within with
  | h0 => simp [clusterDetections_nil]
  | h1 l o ih =>
    rw [clusterDetections_concat]
    have hfo := fold ([o] ++ l.filter (within (ClusterableOf.makePoint o))) ClusterOf.new
    rw [List.foldl_append] at hfo
    obtain ⟨-, f2, f3⟩ := hfo
    simp only [List.foldl_cons, List.foldl_nil] at f2 f3
    constructor
    · intro d hd
      by_cases hw : d ∈ [o] ++ l.filter (within (ClusterableOf.makePoint o))
      · exact ⟨_, List.mem_cons_self, f2 d hw⟩
      · have hd' : d ∈ l.filter (fun d => !within (ClusterableOf.makePoint o) d) := by
          simp only [List.mem_append, List.mem_singleton, List.mem_filter, not_or, not_and] at hw hd ⊢
          rcases hd with hd | hd
          · exact ⟨hd, by simpa using hw.2 hd⟩
          · exact absurd hd hw.1
        obtain ⟨c, hc, h⟩ := ih.1 d hd'
        exact ⟨c, List.mem_cons_of_mem _ hc, h⟩
    · intro c hc u d h
      rcases List.mem_cons.1 hc with rfl | hc
      · rcases f3 u d h with h | ⟨h1, h2⟩
        · simp [ClusterOf.new] at h
        · refine ⟨?_, h2⟩
          simp only [List.mem_append, List.mem_singleton, List.mem_filter] at h1 ⊢
          tauto
      · obtain ⟨h1, h2⟩ := ih.2 c hc u d h
        exact ⟨List.mem_append_left _ (List.mem_filter.1 h1).1, h2⟩

/-! ## C59 -/

/-- the origins of the clusters -/
theorem origins (within : P → δ → Bool) (ds : List δ)
    (hn : (ds.map Identified.id).Nodup) :
    ∃ os : List δ, os.length = (clusterDetections within ds).length ∧ os.head? = ds.getLast? ∧
      ∀ (i : ℕ) o c, os[i]? = some o → (clusterDetections within ds)[i]? = some c →
        In o c ∧ (∀ d, In d c → d ≠ o → within (ClusterableOf.makePoint o) d = true) ∧
          ∀ (j : ℕ) c', i < j → (clusterDetections within ds)[j]? = some c' →
            ∀ d, In d c' → within (ClusterableOf.makePoint o) d = false := by
  induction ds using cluster_induction within with
  | h0 => exact ⟨[], by simp [clusterDetections_nil]⟩
  | h1 l o ih =>
    obtain ⟨os, h1, -, h3⟩ := ih (nodup_rest hn)
    have hh := ClusterOf.first_members within l o hn
    have hpart := (C58_partition within _ (nodup_rest (within := within) hn)).1
    rw [clusterDetections_concat]
    refine ⟨o :: os, by simp [h1], by simp, ?_⟩
    intro i o' c ho hc
    cases i with
    | zero =>
      simp only [List.getElem?_cons_zero, Option.some.injEq] at ho hc
      subst ho; subst hc
      refine ⟨(in_iff hh _).2 (by simp), fun d hd hne => ?_, ?_⟩
      · have := (in_iff hh d).1 hd
        simp only [List.mem_append, List.mem_reverse, List.mem_filter, List.mem_singleton] at this
        rcases this with h | h
        · exact h.2
        · exact absurd h hne
      · intro j c' hj hc' d hd
        cases j with
        | zero => omega
        | succ j =>
          rw [List.getElem?_cons_succ] at hc'
          have hm : (Identified.id d, d) ∈ (clusterDetections within
              (l.filter fun d => !within (ClusterableOf.makePoint o) d)).flatMap
              fun c => c.detections.entries :=
            List.mem_flatMap.2 ⟨c', List.mem_of_getElem? hc', hd⟩
          rw [hpart.mem_iff, List.mem_map] at hm
          obtain ⟨e, he, h⟩ := hm
          rw [Prod.mk.injEq] at h
          rw [h.2] at he
          simpa using (List.mem_filter.1 he).2
    | succ i =>
      rw [List.getElem?_cons_succ] at ho hc
      obtain ⟨g1, g3, g4⟩ := h3 i o' c ho hc
      refine ⟨g1, g3, ?_⟩
      intro j c' hj hc'
      cases j with
      | zero => omega
      | succ j => exact g4 j c' (by omega) hc'

/-- C59: if nothing is within the threshold every detection is a cluster of its own; if
everything is, there is a single cluster. -/
theorem C59_extremes (ds : List δ) :
    (clusterDetections (fun _ _ => false) ds).length = ds.length ∧
    (∀ c ∈ clusterDetections (fun _ _ => false) ds, c.detections.entries.length = 1) ∧
    (clusterDetections (fun _ _ => true) ds).length = min 1 ds.length := by
  have h1 : (clusterDetections (fun _ _ => false) ds).length = ds.length ∧
      ∀ c ∈ clusterDetections (fun _ _ => false) ds, c.detections.entries.length = 1 := by
    refine cluster_induction (motive := fun ds =>
      (clusterDetections (fun _ _ => false) ds).length = ds.length ∧
      ∀ c ∈ clusterDetections (fun _ _ => false) ds, c.detections.entries.length = 1)
      (fun _ _ => false) ?_ ?_ ds
    · simp [clusterDetections_nil]
    · intro l o ih
      rw [clusterDetections_concat]
      simp only [Bool.not_false, List.filter_true] at ih ⊢
      refine ⟨by simp [ih.1], fun c hc => ?_⟩
      rcases List.mem_cons.1 hc with rfl | hc
      · simp only [List.filter_false, List.foldl_nil]
        have : (ClusterOf.new.add o).Holds [o] := ClusterOf.Holds.new.add (by simp)
        exact this.length
      · exact ih.2 c hc
  refine ⟨h1.1, h1.2, ?_⟩
  rcases List.eq_nil_or_concat ds with rfl | ⟨l, o, rfl⟩
  · simp [clusterDetections_nil]
  · rw [List.concat_eq_append, clusterDetections_concat]
    simp [clusterDetections_nil]

/-! ## C60 and C61, members -/

/-- C60: the members are what they should be after every history without repeated
UUIDs, also with `clear`. -/
theorem C60_members (h : List (ClusterOp δ)) (hp : ∀ d pre suf, h = pre ++ .add d :: suf →
    ∀ e ∈ members suf, Identified.id e ≠ Identified.id d) :
    (ClusterOf.run h : ClusterOf P δ).detections.entries.Perm ((members h).map fun d => (Identified.id d, d)) ∧
    ((ClusterOf.run h : ClusterOf P δ).isEmpty = true ↔ members h = []) := by
  have := ClusterOf.run_holds h hp
  refine ⟨this, ?_⟩
  unfold ClusterOf.isEmpty
  rw [this.length]
  simp

/-- C61: the two error cases throw and change nothing. -/
theorem C61_errors (c : ClusterOf P δ) (u : Uuid) :
    ((∀ e ∈ c.detections.entries, e.1 ≠ u) → ClusterOf.remove u c = (c, .throw .outOfRange)) ∧
    ((∃ e ∈ c.detections.entries, e.1 = u) → (ClusterOf.remove u c).2 = .ok ()) ∧
    (c.centroid = .throw .runtimeError ↔ c.isEmpty = true) ∧
    (c.isEmpty = true ↔ c.detections.entries = []) := by
  refine ⟨fun h => ClusterOf.remove_none ?_, fun h => ?_, ?_, ?_⟩
  · refine AList.find?_eq_none.2 ?_
    rintro hm
    obtain ⟨e, he, rfl⟩ := List.mem_map.1 hm
    exact h e he rfl
  · obtain ⟨⟨k, d⟩, he, rfl⟩ := h
    have : c.detections.find? k = some d := UMap.find?_eq_some.2 he
    unfold ClusterOf.remove
    rw [this]
  · unfold ClusterOf.centroid ClusterOf.isEmpty
    rcases c.detections.entries with _ | ⟨a, l⟩ <;> simp
  · unfold ClusterOf.isEmpty
    simp

/-- C61: removing a detection removes just that one. -/
theorem C61_remove (c : ClusterOf P δ) (u v : Uuid) :
    (ClusterOf.remove u c).1.detections.find? v = if v = u then none else c.detections.find? v := by
  rcases hf : c.detections.find? u with _ | d
  · rw [ClusterOf.remove_none hf]
    split
    · rename_i h; rw [h, hf]
    · rfl
  · unfold ClusterOf.remove
    rw [hf]
    simp only [UMap.find?_erase]

end

variable {δ : Type} [Clusterable δ] [Readable δ] [ClusterLaws δ]

/-- the point shows the reading of the detection -/
def Shows (p : Point) (d : δ) : Prop :=
  p.x = (Readable.reading d).x ∧ p.y = (Readable.reading d).y ∧ p.v = (Readable.reading d).v ∧
  p.yaw.getAngle = (Readable.reading d).yaw ∧ p.yawRate = (Readable.reading d).yawRate

theorem makePoint_shows (d : δ) : Shows (ClusterableOf.makePoint d) d :=
  ⟨ClusterLaws.makePoint_x d, ClusterLaws.makePoint_y d, ClusterLaws.makePoint_v d,
    ClusterLaws.makePoint_yaw d, ClusterLaws.makePoint_yawRate d⟩

/-- C59: there is one origin per cluster.  The origin is in its cluster; every other
member is within the threshold of the origin; nothing in a later cluster is (in
particular no later origin).  The first origin is the last detection. -/
theorem C59_origins (within : Point → δ → Bool) (ds : List δ)
    (hn : (ds.map Identified.id).Nodup) :
    ∃ os : List δ, os.length = (clusterDetections within ds).length ∧ os.head? = ds.getLast? ∧
      ∀ (i : ℕ) o c, os[i]? = some o → (clusterDetections within ds)[i]? = some c →
        In o c ∧ ∃ p, Shows p o ∧ (∀ d, In d c → d ≠ o → within p d = true) ∧
          ∀ (j : ℕ) c', i < j → (clusterDetections within ds)[j]? = some c' →
            ∀ d, In d c' → within p d = false := by
  obtain ⟨os, h1, h2, h3⟩ := origins within ds hn
  refine ⟨os, h1, h2, fun i o c ho hc => ?_⟩
  obtain ⟨g1, g2, g3⟩ := h3 i o c ho hc
  exact ⟨g1, _, makePoint_shows o, g2, g3⟩

/-! ## C60 -/

/-- The statements of this file apply to the three detection types of the library: what the
overloads for these types read is the reading of the detection. -/
theorem C60_detection_types (C C' : Type) : ClusterLaws (DynObj CtrvState C) ∧
    ClusterLaws (DynObj CtraState C) ∧ ClusterLaws (Obj2 CtrvState C CtraState C') :=
  ⟨clusterLawsCtrv, clusterLawsCtra, clusterLawsVariant⟩

/-- C60, what holds: after any history of calls in which UUIDs are not repeated while
present and `clear` is only called on empty clusters, `get_centroid` of a non-empty
cluster returns the mean of the members in position, speed and yaw rate.  The yaw times
the number of members is the sum of the yaws modulo 2π, taken in [0, 2π). -/
theorem C60_centroid_partial (h : List (ClusterOp δ)) (hp : Proper h) (hne : members h ≠ []) :
    ∃ p, (ClusterOf.run h).centroid = .ok p ∧
      IsMean p.x ((members h).map fun d => (Readable.reading d).x) ∧
      IsMean p.y ((members h).map fun d => (Readable.reading d).y) ∧
      IsMean p.v ((members h).map fun d => (Readable.reading d).v) ∧
      IsMean p.yawRate ((members h).map fun d => (Readable.reading d).yawRate) ∧
      SameDir (p.yaw.getAngle * (members h).length)
        ((members h).map fun d => (Readable.reading d).yaw).sum ∧
      p.yaw.getAngle * (members h).length < 2 * π ∧
      (((members h).map fun d => (Readable.reading d).yaw).sum ∈ Set.Ico 0 (2 * π) →
        IsMean p.yaw.getAngle ((members h).map fun d => (Readable.reading d).yaw)) := by
  obtain ⟨h1, h2, h3, h4, h5, h6⟩ := ClusterOf.run_inv h hp
  rw [ClusterOf.centroid_exact h1, if_neg hne]
  set ms := members h
  have hl : (0 : ℝ) < ms.length := by
    exact_mod_cast List.length_pos_of_ne_nil hne
  have hl1 : (1 : ℝ) ≤ ms.length := by
    exact_mod_cast List.length_pos_of_ne_nil hne
  obtain ⟨r1, r2⟩ := Angle.getAngle_range (ClusterOf.run h).stateSum.yaw
  have hy : ((ClusterOf.run h).stateSum.divide ms.length).yaw.getAngle
      = (ClusterOf.run h).stateSum.yaw.getAngle / ms.length :=
    Angle.getAngle_ofRad_of_range ⟨div_nonneg r1 hl.le,
      lt_of_le_of_lt (div_le_self r1 hl1) r2⟩
  refine ⟨_, rfl, ⟨by simpa using hne, ?_⟩, ⟨by simpa using hne, ?_⟩, ⟨by simpa using hne, ?_⟩,
    ⟨by simpa using hne, ?_⟩, ?_, ?_, fun hr => ⟨by simpa using hne, ?_⟩⟩
  · rw [List.length_map, ← h2]; exact div_mul_cancel₀ _ hl.ne'
  · rw [List.length_map, ← h3]; exact div_mul_cancel₀ _ hl.ne'
  · rw [List.length_map, ← h4]; exact div_mul_cancel₀ _ hl.ne'
  · rw [List.length_map, ← h6]; exact div_mul_cancel₀ _ hl.ne'
  · rw [hy, div_mul_cancel₀ _ hl.ne', h5]
    exact Angle.sameDir_getAngle _
  · rw [hy, div_mul_cancel₀ _ hl.ne']
    exact r2
  · rw [hy, List.length_map, div_mul_cancel₀ _ hl.ne', h5]
    exact Angle.getAngle_ofRad_of_range hr

/-- C60 holds for the clusters returned by `cluster_detections`. -/
theorem C60_clusters (within : Point → δ → Bool) (ds : List δ)
    (hn : (ds.map Identified.id).Nodup) (c : Cluster δ) (hc : c ∈ clusterDetections within ds) :
    ∃ p, c.centroid = .ok p ∧
      IsMean p.x (c.detections.entries.map fun e => (Readable.reading e.2).x) ∧
      IsMean p.y (c.detections.entries.map fun e => (Readable.reading e.2).y) ∧
      IsMean p.v (c.detections.entries.map fun e => (Readable.reading e.2).v) ∧
      IsMean p.yawRate (c.detections.entries.map fun e => (Readable.reading e.2).yawRate) := by
  have key : ∃ ms, ms ≠ [] ∧ c.Holds ms ∧ c.SumOf ms := by
    induction ds using cluster_induction within with
    | h0 => simp [clusterDetections_nil] at hc
    | h1 l o ih =>
      rw [clusterDetections_concat] at hc
      rcases List.mem_cons.1 hc with rfl | hc
      · exact ⟨_, by simp, ClusterOf.first_holds within l o hn⟩
      · exact ih (nodup_rest hn) hc
  obtain ⟨ms, hne, h1, h2, h3, h4, -, h6⟩ := key
  have hl : (0 : ℝ) < ms.length := by
    exact_mod_cast List.length_pos_of_ne_nil hne
  have hne' : c.detections.entries ≠ [] := by
    intro h
    have := h1.length
    rw [h] at this
    exact hne (List.length_eq_zero_iff.1 this.symm)
  have hsum : ∀ f : δ → ℝ, (c.detections.entries.map fun e => f e.2).sum = (ms.map f).sum := by
    intro f
    rw [(h1.map (fun e => f e.2)).sum_eq, List.map_map]
    rfl
  rw [ClusterOf.centroid_exact h1, if_neg hne]
  refine ⟨_, rfl, ⟨by simpa using hne', ?_⟩, ⟨by simpa using hne', ?_⟩, ⟨by simpa using hne', ?_⟩,
    ⟨by simpa using hne', ?_⟩⟩
  · rw [List.length_map, h1.length, hsum fun d => (Readable.reading d).x, ← h2]; exact div_mul_cancel₀ _ hl.ne'
  · rw [List.length_map, h1.length, hsum fun d => (Readable.reading d).y, ← h3]; exact div_mul_cancel₀ _ hl.ne'
  · rw [List.length_map, h1.length, hsum fun d => (Readable.reading d).v, ← h4]; exact div_mul_cancel₀ _ hl.ne'
  · rw [List.length_map, h1.length, hsum fun d => (Readable.reading d).yawRate, ← h6]; exact div_mul_cancel₀ _ hl.ne'

/-- C60, exactly, for every history of calls: `get_centroid` throws iff the cluster is empty;
otherwise it returns the sum of the readings of the members and of all ghosts (members lost
by `clear`, detections added under a present UUID), divided by the number of members.  Hence
it is the mean exactly if the readings of the ghosts cancel.  The yaw is the sum reduced to
[0, 2π), then divided. -/
theorem C60_all_histories (h : List (ClusterOp δ)) :
    (ClusterOf.run h).detections.entries.Perm ((kept h).map fun d => (Identified.id d, d)) ∧
    (kept h = [] → (ClusterOf.run h).centroid = .throw .runtimeError) ∧
    (kept h ≠ [] → ∃ p, (ClusterOf.run h).centroid = .ok p ∧
      p.x * (kept h).length = ((kept h).map fun d => (Readable.reading d).x).sum +
        ((ghosts h).map fun d => (Readable.reading d).x).sum ∧
      p.y * (kept h).length = ((kept h).map fun d => (Readable.reading d).y).sum +
        ((ghosts h).map fun d => (Readable.reading d).y).sum ∧
      p.v * (kept h).length = ((kept h).map fun d => (Readable.reading d).v).sum +
        ((ghosts h).map fun d => (Readable.reading d).v).sum ∧
      p.yawRate * (kept h).length = ((kept h).map fun d => (Readable.reading d).yawRate).sum +
        ((ghosts h).map fun d => (Readable.reading d).yawRate).sum ∧
      SameDir (p.yaw.getAngle * (kept h).length)
        (((kept h).map fun d => (Readable.reading d).yaw).sum +
          ((ghosts h).map fun d => (Readable.reading d).yaw).sum) ∧
      p.yaw.getAngle * (kept h).length < 2 * π ∧
      (IsMean p.x ((kept h).map fun d => (Readable.reading d).x) ↔
        ((ghosts h).map fun d => (Readable.reading d).x).sum = 0)) := by
  obtain ⟨h1, h2, h3, h4, h5, h6⟩ := ClusterOf.run_all h
  rw [ClusterOf.centroid_exact h1]
  refine ⟨h1, fun he => if_pos he, fun hne => ?_⟩
  rw [if_neg hne]
  simp only [List.map_append, List.sum_append] at h2 h3 h4 h5 h6
  set ms := kept h
  have hl : (0 : ℝ) < ms.length := by
    exact_mod_cast List.length_pos_of_ne_nil hne
  have hl1 : (1 : ℝ) ≤ ms.length := by
    exact_mod_cast List.length_pos_of_ne_nil hne
  obtain ⟨r1, r2⟩ := Angle.getAngle_range (ClusterOf.run h).stateSum.yaw
  have hy : ((ClusterOf.run h).stateSum.divide ms.length).yaw.getAngle
      = (ClusterOf.run h).stateSum.yaw.getAngle / ms.length :=
    Angle.getAngle_ofRad_of_range ⟨div_nonneg r1 hl.le,
      lt_of_le_of_lt (div_le_self r1 hl1) r2⟩
  have hx : ((ClusterOf.run h).stateSum.divide ms.length).x * ms.length = _ :=
    (div_mul_cancel₀ _ hl.ne').trans h2
  refine ⟨_, rfl, hx, (div_mul_cancel₀ _ hl.ne').trans h3, (div_mul_cancel₀ _ hl.ne').trans h4,
    (div_mul_cancel₀ _ hl.ne').trans h6, ?_, ?_, ?_⟩
  · rw [hy, div_mul_cancel₀ _ hl.ne', h5]
    exact Angle.sameDir_getAngle _
  · rw [hy, div_mul_cancel₀ _ hl.ne']
    exact r2
  · unfold IsMean
    rw [List.length_map, hx]
    constructor
    · intro ⟨_, h⟩; linarith
    · intro h; exact ⟨by simpa using hne, by rw [h, add_zero]⟩

/-- two detections added and cleared, then one added twice: one member, three ghosts -/
example (a b c : δ) : kept [.add c, .add c, .clear, .add b, .add a] = [c] ∧
    (Identified.id a ≠ Identified.id b → ghosts [.add c, .add c, .clear, .add b, .add a] = [c, b, a]) := by
  constructor
  · simp [kept]
  · intro h
    simp [kept, ghosts, h]

/-- C60 is false after `clear`: the sum of the old members is still counted. -/
theorem C60_clear_keeps_sum (a b : δ) :
    ∃ p, (ClusterOf.run [.add b, .clear, .add a]).centroid = .ok p ∧
      (ClusterOf.run [.add b, .clear, .add a]).detections.entries = [(Identified.id b, b)] ∧
      p.x = (Readable.reading a).x + (Readable.reading b).x := by
  have hh : (ClusterOf.run [.add b, .clear, .add a]).Holds [b] :=
    ClusterOf.Holds.add (ms := []) ClusterOf.Holds.new (by simp)
  have hs : (ClusterOf.run [.add b, .clear, .add a]).SumOf [b, a] :=
    ClusterOf.SumOf.add (c := (ClusterOf.new.add a).clear) (ms := [a]) (ClusterOf.SumOf.new.add a) b
  rw [ClusterOf.centroid_exact hh, if_neg (by simp)]
  refine ⟨_, rfl, List.perm_singleton.1 hh, ?_⟩
  simp only [Point.divide, hs.1]
  simp [add_comm]

/-- C60 is false when a UUID is added twice: one member, counted twice. -/
theorem C60_duplicate_counts_twice (a : δ) :
    ∃ p, (ClusterOf.run [.add a, .add a]).centroid = .ok p ∧
      (ClusterOf.run [.add a, .add a]).detections.entries = [(Identified.id a, a)] ∧
      p.x = 2 * (Readable.reading a).x := by
  have h1 : (ClusterOf.new.add a).Holds [a] := ClusterOf.Holds.new.add (by simp)
  have hh : (ClusterOf.run [.add a, .add a]).Holds [a] := by
    have hf : (ClusterOf.new.add a).detections.find? (Identified.id a) ≠ none := by
      rw [(h1.find? _ a).2 ⟨by simp, rfl⟩]; simp
    have e : (ClusterOf.run [.add a, .add a]).detections = (ClusterOf.new.add a).detections := by
      show ((ClusterOf.new.add a).detections.emplace (ClusterableOf.uuid a) a) = _
      rw [ClusterIds.uuid_eq]
      exact UMap.emplace_of_some hf
    unfold ClusterOf.Holds
    rw [e]
    exact h1
  have hs : (ClusterOf.run [.add a, .add a]).SumOf [a, a] :=
    (ClusterOf.SumOf.new.add a).add a
  rw [ClusterOf.centroid_exact hh, if_neg (by simp)]
  refine ⟨_, rfl, List.perm_singleton.1 hh, ?_⟩
  simp only [Point.divide, hs.1]
  simp; ring

/-- C60 is false for yaw: two detections with the same heading of at least π have a
centroid pointing the opposite way. -/
theorem C60_yaw_opposite (a b : δ) (hab : Identified.id a ≠ Identified.id b)
    (ha : (Readable.reading a).yaw ∈ Set.Ico π (2 * π))
    (hb : (Readable.reading b).yaw = (Readable.reading a).yaw) :
    ∃ p, (ClusterOf.run [.add b, .add a]).centroid = .ok p ∧
      p.yaw.getAngle = (Readable.reading a).yaw - π := by
  have hp : Proper ([.add b, .add a] : List (ClusterOp δ)) := by
    simp [Proper, members, hab]
  obtain ⟨p, h1, -, -, -, -, h2, h3, -⟩ := C60_centroid_partial _ hp (by simp [members])
  refine ⟨p, h1, ?_⟩
  simp only [members, List.map_cons, List.map_nil, List.sum_cons, List.sum_nil, add_zero,
    List.length_cons, List.length_nil] at h2 h3
  rw [hb] at h2
  have hpi := Real.pi_pos
  obtain ⟨r1, r2⟩ := Angle.getAngle_range p.yaw
  norm_num at h2 h3
  have h4 : SameDir (p.yaw.getAngle * 2) (2 * ((Readable.reading a).yaw - π)) :=
    h2.trans ⟨1, by push_cast; ring⟩
  have := h4.eq_of_range ⟨by linarith, h3⟩ ⟨by linarith [ha.1], by linarith [ha.2]⟩
  linarith

/-! ## C61 -/

/-- C61: removing what was just added restores members and sum (for a sum with a
heading on the unit circle, which every constructor and operator yields). -/
theorem C61_add_remove (c : Cluster δ) (d : δ) (hv : c.stateSum.yaw.Valid)
    (hd : ∀ e ∈ c.detections.entries, e.1 ≠ Identified.id d) :
    ClusterOf.remove (Identified.id d) (c.add d) = (c, .ok ()) := by
  have hf : c.detections.find? (Identified.id d) = none := by
    refine AList.find?_eq_none.2 ?_
    rintro hm
    obtain ⟨e, he, h⟩ := List.mem_map.1 hm
    exact hd e he h
  have hent : (c.add d).detections.entries = (Identified.id d, d) :: c.detections.entries := by
    show (c.detections.emplace (ClusterableOf.uuid d) d).entries = _
    rw [ClusterIds.uuid_eq]
    exact UMap.emplace_entries hf
  have hf' : (c.add d).detections.find? (Identified.id d) = some d := by
    refine UMap.find?_eq_some.2 ?_
    rw [hent]; exact List.mem_cons_self
  unfold ClusterOf.remove
  rw [hf']
  simp only [Prod.mk.injEq, and_true]
  have e1 : (c.add d).detections.erase (Identified.id d) = c.detections := by
    have : ((c.add d).detections.erase (Identified.id d)).entries = c.detections.entries := by
      show (c.add d).detections.entries.filter _ = _
      rw [hent, List.filter_cons_of_neg (by simp), List.filter_eq_self.2]
      intro e he
      simpa using hd e he
    cases hx : (c.add d).detections.erase (Identified.id d)
    cases hy : c.detections
    rw [hx, hy] at this
    cases this
    rfl
  rw [e1]
  have e2 : ClusterableOf.subFrom (c.add d).stateSum d = c.stateSum := by
    show ClusterableOf.subFrom (ClusterableOf.addTo c.stateSum d) d = _
    rw [ClusterLaws.addTo_eq, ClusterLaws.subFrom_eq]
    rcases hs : c.stateSum with ⟨x, y, v, yaw, w⟩
    rw [hs] at hv
    simp only [add_sub_cancel_right, Point.mk.injEq, true_and, and_true]
    have hyv : yaw.Valid := hv
    conv_rhs => rw [← Angle.ofRad_getAngle hyv]
    rw [Angle.ofRad_eq_iff]
    have := (Angle.sameDir_getAngle (yaw.getAngle + (Readable.reading d).yaw)).sub
      (SameDir.refl (Readable.reading d).yaw)
    rwa [add_sub_cancel_right] at this
  rw [e2]

/-! ## C62 -/

theorem sqDist_eq_dist {p : Point} {o d : δ} (hp : Shows p o) :
    Clusterable.sqDist p d = Reading.dist (Readable.reading o) (Readable.reading d) ^ 2 := by
  obtain ⟨h1, h2, h3, h4, h5⟩ := hp
  rw [ClusterLaws.sqDist_eq, Reading.dist, Real.sq_sqrt (by positivity), h1, h2, h3, h4, h5]

theorem dist_nonneg' (a b : Reading) : 0 ≤ Reading.dist a b := Real.sqrt_nonneg _

/-- C62, what holds: two detections end up in one cluster iff their Euclidean distance
is below the square root of the threshold. -/
theorem C62_pair_partial (a b : δ) (r : ℝ) :
    ((clusterDetectionsDefault [a, b] r).length = 1 ↔
      Reading.dist (Readable.reading b) (Readable.reading a) < √r) ∧
    ((clusterDetectionsDefault [a, b] r).length = 2 ↔
      √r ≤ Reading.dist (Readable.reading b) (Readable.reading a)) := by
  classical
  have hd : 0 ≤ Reading.dist (Readable.reading b) (Readable.reading a) := Real.sqrt_nonneg _
  have key : (Clusterable.sqDist (ClusterableOf.makePoint b) a < r) ↔
      Reading.dist (Readable.reading b) (Readable.reading a) < √r := by
    rw [sqDist_eq_dist (makePoint_shows b), Real.lt_sqrt hd]
  have e : clusterDetectionsDefault [a, b] r =
      clusterDetections (fun p d => decide (Clusterable.sqDist p d < r)) ([a] ++ [b]) := rfl
  rw [e, clusterDetections_concat]
  by_cases h : Clusterable.sqDist (ClusterableOf.makePoint b) a < r
  · have := key.1 h
    simp [h, clusterDetections_nil, this]
  · have h' := fun x => h (key.2 x)
    have f1 : [a].filter (fun d => !decide (Clusterable.sqDist (ClusterableOf.makePoint b) d < r))
        = [a] := by simp [not_lt.1 h]
    rw [f1, List.length_cons]
    have e1 : clusterDetections (fun p d => decide (Clusterable.sqDist p d < r)) ([a] : List δ) =
        clusterDetections (fun p d => decide (Clusterable.sqDist p d < r)) ([] ++ [a]) := rfl
    rw [e1, clusterDetections_concat]
    simp [clusterDetections_nil, not_lt.1 h']

/-- C62, what holds for any number of detections: everything in a cluster is within
Euclidean distance √r of its origin, everything in later clusters is not. -/
theorem C62_radius_partial (ds : List δ) (r : ℝ) (hn : (ds.map Identified.id).Nodup) :
    ∃ os : List δ, os.length = (clusterDetectionsDefault ds r).length ∧
      ∀ (i : ℕ) o c, os[i]? = some o → (clusterDetectionsDefault ds r)[i]? = some c →
        In o c ∧
        (∀ d, In d c → d = o ∨ Reading.dist (Readable.reading o) (Readable.reading d) < √r) ∧
        ∀ (j : ℕ) c', i < j → (clusterDetectionsDefault ds r)[j]? = some c' →
          ∀ d, In d c' → √r ≤ Reading.dist (Readable.reading o) (Readable.reading d) := by
  classical
  obtain ⟨os, h1, -, h2⟩ := C59_origins (fun p d => decide (Clusterable.sqDist p d < r)) ds hn
  refine ⟨os, h1, fun i o c ho hc => ?_⟩
  obtain ⟨g1, p, g2, g3, g4⟩ := h2 i o c ho hc
  refine ⟨g1, fun d hd => ?_, fun j c' hj hc' d hd => ?_⟩
  · by_cases h : d = o
    · exact .inl h
    · have := g3 d hd h
      rw [decide_eq_true_eq, sqDist_eq_dist g2, ← Real.lt_sqrt (dist_nonneg' _ _)] at this
      exact .inr this
  · have := g4 j c' hj hc' d hd
    rw [decide_eq_false_iff_not, sqDist_eq_dist g2, ← Real.lt_sqrt (dist_nonneg' _ _)] at this
    exact not_lt.1 this

/-- detections on the x axis -/
noncomputable def onAxis (name : Fin 256) (x : ℝ) : DynObj CtrvState Unit :=
  ⟨0, ⟨x, 0, 0, Angle.ofRad 0, 0⟩, (), ⟨[name]⟩, .unknown⟩

theorem dist_onAxis (n m : Fin 256) (x y : ℝ) :
    Reading.dist (Readable.reading (onAxis n x)) (Readable.reading (onAxis m y)) = |x - y| := by
  simp [Reading.dist, Readable.reading, onAxis, Real.sqrt_sq_eq_abs]

theorem id_onAxis {n m : Fin 256} (h : n ≠ m) (x y : ℝ) :
    Identified.id (onAxis n x) ≠ Identified.id (onAxis m y) := by
  simpa [Identified.id, onAxis] using h

/-- C62, exactly: the threshold acts as a Euclidean distance on all pairs of detections if
and only if it is 1, or not positive. -/
theorem C62_iff (r : ℝ) :
    (∀ a b : DynObj CtrvState Unit, Identified.id a ≠ Identified.id b →
      ((clusterDetectionsDefault [a, b] r).length = 1 ↔
        Reading.dist (Readable.reading b) (Readable.reading a) < r)) ↔ r = 1 ∨ r ≤ 0 := by
  simp only [(C62_pair_partial _ _ _).1]
  constructor
  · intro h
    by_contra hr
    push Not at hr
    obtain ⟨h1, h0⟩ := hr
    have hs := Real.sqrt_pos.2 h0
    have hss := Real.mul_self_sqrt h0.le
    have e1 := h (onAxis 1 0) (onAxis 2 (min √r r)) (id_onAxis (by decide) _ _)
    rw [dist_onAxis, sub_zero, abs_of_pos (lt_min hs h0)] at e1
    rcases lt_trichotomy √r r with hlt | heq | hgt
    · rw [min_eq_left hlt.le] at e1
      exact lt_irrefl _ (e1.2 hlt)
    · rw [heq] at hss
      exact h1 (by nlinarith)
    · rw [min_eq_right hgt.le] at e1
      exact lt_irrefl _ (e1.1 hgt)
  · rintro (rfl | hr) a b -
    · rw [Real.sqrt_one]
    · rw [Real.sqrt_eq_zero_of_nonpos hr]
      have := dist_nonneg' (Readable.reading b) (Readable.reading a)
      constructor <;> intro h <;> linarith

/-- C62 is false: with threshold 3 two detections 2 m apart are put in different
clusters, and with threshold 1/4 two detections 0.3 m apart are put together. -/
theorem C62_threshold_is_squared :
    (∃ a b : DynObj CtrvState Unit, Identified.id a ≠ Identified.id b ∧
      Reading.dist (Readable.reading a) (Readable.reading b) < 3 ∧
      (clusterDetectionsDefault [a, b] 3).length = 2) ∧
    (∃ a b : DynObj CtrvState Unit, Identified.id a ≠ Identified.id b ∧
      1 / 4 < Reading.dist (Readable.reading a) (Readable.reading b) ∧
      (clusterDetectionsDefault [a, b] (1 / 4)).length = 1) := by
  refine ⟨⟨onAxis 1 0, onAxis 2 2, id_onAxis (by decide) _ _, ?_, ?_⟩,
    ⟨onAxis 1 0, onAxis 2 (3 / 10), id_onAxis (by decide) _ _, ?_, ?_⟩⟩
  · rw [dist_onAxis]; norm_num
  · rw [(C62_pair_partial _ _ _).2, dist_onAxis,
      Real.sqrt_le_left (by positivity)]
    norm_num
  · rw [dist_onAxis, abs_sub_comm, abs_of_pos (by norm_num)]; norm_num
  · rw [(C62_pair_partial _ _ _).1, dist_onAxis,
      Real.lt_sqrt (by positivity)]
    norm_num

/-! ## C72 -/

theorem reading_dist_triangle (a b c : Reading) :
    Reading.dist a c ≤ Reading.dist a b + Reading.dist b c := by
  have h := dist_triangle (α := EuclideanSpace ℝ (Fin 5)) !₂[a.x, a.y, a.v, a.yaw, a.yawRate]
    !₂[b.x, b.y, b.v, b.yaw, b.yawRate] !₂[c.x, c.y, c.v, c.yaw, c.yawRate]
  simpa [EuclideanSpace.dist_eq, Fin.sum_univ_five, Reading.dist, Real.dist_eq, sq_abs] using h

theorem reading_dist_comm (a b : Reading) : Reading.dist a b = Reading.dist b a := by
  unfold Reading.dist
  congr 1; ring

/-- C72: two members of a cluster are less than 2√r apart. -/
theorem C72_diameter (ds : List δ) (r : ℝ) (hr : 0 < r) (hn : (ds.map Identified.id).Nodup)
    (c : Cluster δ) (hc : c ∈ clusterDetectionsDefault ds r) (a b : δ) (ha : In a c)
    (hb : In b c) : Reading.dist (Readable.reading a) (Readable.reading b) < 2 * √r := by
  obtain ⟨os, h1, h2⟩ := C62_radius_partial ds r hn
  obtain ⟨i, hi, rfl⟩ := List.getElem_of_mem hc
  obtain ⟨-, h3, -⟩ := h2 i (os[i]'(by omega)) _ (List.getElem?_eq_getElem _) (List.getElem?_eq_getElem hi)
  have hs : 0 < √r := Real.sqrt_pos.2 hr
  have hself : ∀ x : Reading, Reading.dist x x = 0 := fun x => by simp [Reading.dist]
  have hlt : ∀ d, In d (clusterDetectionsDefault ds r)[i] →
      Reading.dist (Readable.reading os[i]) (Readable.reading d) < √r := by
    intro d hd
    rcases h3 d hd with rfl | h
    · rw [hself]; exact hs
    · exact h
  have := reading_dist_triangle (Readable.reading a) (Readable.reading os[i]) (Readable.reading b)
  rw [reading_dist_comm (Readable.reading a) (Readable.reading os[i])] at this
  linarith [hlt a ha, hlt b hb]

/-- C72: if being within the threshold is an equivalence relation among the detections
(well separated groups), two detections share a cluster iff they are within the
threshold of each other, whatever the order of the input. -/
theorem C72_separated_partial (within : Point → δ → Bool) (ds : List δ)
    (hn : (ds.map Identified.id).Nodup)
    (R : δ → δ → Prop) (hR : ∀ a ∈ ds, ∀ b ∈ ds, ∀ p, Shows p a → (within p b = true ↔ R a b))
    (hrefl : ∀ a ∈ ds, R a a)
    (hsymm : ∀ a ∈ ds, ∀ b ∈ ds, R a b → R b a)
    (htrans : ∀ a ∈ ds, ∀ b ∈ ds, ∀ c ∈ ds, R a b → R b c → R a c)
    (a b : δ) (ha : a ∈ ds) (hb : b ∈ ds) :
    (∃ c ∈ clusterDetections within ds, In a c ∧ In b c) ↔ R a b := by
  obtain ⟨os, h1, -, h2⟩ := C59_origins within ds hn
  have hmem : ∀ c ∈ clusterDetections within ds, ∀ d, In d c → d ∈ ds := by
    intro c hc d hd
    have := (C58_partition within ds hn).1.mem_iff.1 (List.mem_flatMap.2 ⟨c, hc, hd⟩)
    obtain ⟨e, he, h⟩ := List.mem_map.1 this
    rw [Prod.mk.injEq] at h
    exact h.2 ▸ he
  -- every member is related to the origin of its cluster
  have horig : ∀ i (hi : i < (clusterDetections within ds).length) d,
      In d (clusterDetections within ds)[i] → (os[i]'(by omega)) ∈ ds ∧ R (os[i]'(by omega)) d := by
    intro i hi d hd
    obtain ⟨g1, p, g2, g3, -⟩ := h2 i (os[i]'(by omega)) _ (List.getElem?_eq_getElem _) (List.getElem?_eq_getElem hi)
    have ho := hmem _ (List.getElem_mem hi) _ g1
    have hd' := hmem _ (List.getElem_mem hi) _ hd
    refine ⟨ho, ?_⟩
    by_cases h : d = os[i]'(by omega)
    · rw [h]; exact hrefl _ ho
    · exact (hR _ ho _ hd' p g2).1 (g3 d hd h)
  constructor
  · rintro ⟨c, hc, hac, hbc⟩
    obtain ⟨i, hi, rfl⟩ := List.getElem_of_mem hc
    obtain ⟨ho, r1⟩ := horig i hi a hac
    obtain ⟨-, r2⟩ := horig i hi b hbc
    exact htrans a ha _ ho b hb (hsymm _ ho a ha r1) r2
  · intro hab
    obtain ⟨⟨i, hi⟩, hai, -⟩ := C58_exactly_one within ds hn a ha
    obtain ⟨⟨j, hj⟩, hbj, -⟩ := C58_exactly_one within ds hn b hb
    simp only [List.get_eq_getElem] at hai hbj
    obtain ⟨hoi, r1⟩ := horig i hi a hai
    obtain ⟨hoj, r2⟩ := horig j hj b hbj
    -- the origin of either cluster is related to the member of the other
    have ri : R (os[i]'(by omega)) b := htrans _ hoi a ha b hb r1 hab
    have rj : R (os[j]'(by omega)) a := htrans _ hoj b hb a ha r2 (hsymm a ha b hb hab)
    rcases lt_trichotomy i j with h | h | h
    · obtain ⟨-, p, g2, -, g4⟩ := h2 i (os[i]'(by omega)) _ (List.getElem?_eq_getElem _) (List.getElem?_eq_getElem hi)
      have := g4 j _ h (List.getElem?_eq_getElem hj) b hbj
      rw [(hR _ hoi b hb p g2).2 ri] at this
      cases this
    · subst h
      exact ⟨_, List.getElem_mem hi, hai, hbj⟩
    · obtain ⟨-, p, g2, -, g4⟩ := h2 j (os[j]'(by omega)) _ (List.getElem?_eq_getElem _) (List.getElem?_eq_getElem hj)
      have := g4 i _ h (List.getElem?_eq_getElem hi) a hai
      rw [(hR _ hoj a ha p g2).2 rj] at this
      cases this

/-- being within the threshold is transitive among the detections -/
def WithinTransitive (ds : List δ) (r : ℝ) : Prop :=
  ∀ a ∈ ds, ∀ b ∈ ds, ∀ c ∈ ds, Reading.dist (Readable.reading a) (Readable.reading b) < √r →
    Reading.dist (Readable.reading b) (Readable.reading c) < √r →
    Reading.dist (Readable.reading a) (Readable.reading c) < √r

/-- the detections `a` and `b` are in one cluster -/
def Together (ds : List δ) (r : ℝ) (a b : δ) : Prop :=
  ∃ c ∈ clusterDetectionsDefault ds r, In a c ∧ In b c

theorem together_of_transitive {ds : List δ} {r : ℝ} (hr : 0 < r)
    (hn : (ds.map Identified.id).Nodup) (h : WithinTransitive ds r) {a b : δ} (ha : a ∈ ds)
    (hb : b ∈ ds) :
    Together ds r a b ↔ Reading.dist (Readable.reading a) (Readable.reading b) < √r := by
  classical
  refine C72_separated_partial _ ds hn
    (fun a b => Reading.dist (Readable.reading a) (Readable.reading b) < √r) ?_ ?_ ?_ h a b ha hb
  · intro a _ b _ p hp
    rw [decide_eq_true_eq, sqDist_eq_dist hp, ← Real.lt_sqrt (dist_nonneg' _ _)]
  · intro a _
    have : Reading.dist (Readable.reading a) (Readable.reading a) = 0 := by simp [Reading.dist]
    rw [this]
    exact Real.sqrt_pos.2 hr
  · intro a _ b _ hab
    rwa [reading_dist_comm]

/-- the last detection is together with exactly the detections within the threshold of it -/
theorem together_last {l : List δ} {o : δ} {r : ℝ} (hr : 0 < r)
    (hn : ((l ++ [o]).map Identified.id).Nodup) {d : δ} (hd : d ∈ l ++ [o]) :
    Together (l ++ [o]) r o d ↔ Reading.dist (Readable.reading o) (Readable.reading d) < √r := by
  classical
  have hself : Reading.dist (Readable.reading o) (Readable.reading o) < √r := by
    have : Reading.dist (Readable.reading o) (Readable.reading o) = 0 := by simp [Reading.dist]
    rw [this]
    exact Real.sqrt_pos.2 hr
  set w : Point → δ → Bool := fun p d => decide (Clusterable.sqDist p d < r) with hw
  have hone := C58_exactly_one w (l ++ [o]) hn
  obtain ⟨os, h1, hh, h2⟩ := C59_origins w (l ++ [o]) hn
  have hos : os[0]? = some o := by rw [← List.head?_eq_getElem?, hh, List.getLast?_concat]
  have h0 : 0 < (clusterDetections w (l ++ [o])).length := by
    rw [← h1]
    exact (List.getElem?_eq_some_iff.1 hos).1
  obtain ⟨g1, p, g2, g3, g4⟩ := h2 0 o _ hos (List.getElem?_eq_getElem h0)
  have hwithin : ∀ d, w p d = true ↔ Reading.dist (Readable.reading o) (Readable.reading d) < √r := by
    intro d
    rw [hw, decide_eq_true_eq, sqDist_eq_dist g2, ← Real.lt_sqrt (dist_nonneg' _ _)]
  constructor
  · rintro ⟨c, hc, hoc, hdc⟩
    obtain ⟨i, hi, rfl⟩ := List.getElem_of_mem hc
    have e : (⟨i, hi⟩ : Fin (clusterDetections w (l ++ [o])).length) = ⟨0, h0⟩ :=
      (hone o (by simp)).unique hoc g1
    cases e
    by_cases hdo : d = o
    · rw [hdo]; exact hself
    · exact (hwithin d).1 (g3 d hdc hdo)
  · intro h
    obtain ⟨⟨j, hj⟩, hdj, -⟩ := hone d hd
    rcases Nat.eq_zero_or_pos j with rfl | hpos
    · exact ⟨_, List.getElem_mem h0, g1, hdj⟩
    · have := g4 j _ hpos (List.getElem?_eq_getElem hj) d hdj
      rw [(hwithin d).2 h] at this
      cases this

theorem together_trans {ds : List δ} {r : ℝ} (hn : (ds.map Identified.id).Nodup) {a b c : δ}
    (hb : b ∈ ds) (h1 : Together ds r a b) (h2 : Together ds r b c) : Together ds r a c := by
  classical
  obtain ⟨k, hk, hak, hbk⟩ := h1
  obtain ⟨k', hk', hbk', hck⟩ := h2
  obtain ⟨i, hi, rfl⟩ := List.getElem_of_mem hk
  obtain ⟨j, hj, rfl⟩ := List.getElem_of_mem hk'
  have e := (C58_exactly_one (fun p d => decide (Clusterable.sqDist p d < r)) ds hn b hb).unique
    (y₁ := ⟨i, hi⟩) (y₂ := ⟨j, hj⟩) hbk hbk'
  cases e
  exact ⟨_, hk, hak, hck⟩

/-- C72: the documented behaviour holds for every order of the detections exactly if being within the
threshold is transitive among them. -/
theorem C72_documented_iff (ds : List δ) (r : ℝ) (hr : 0 < r) (hn : (ds.map Identified.id).Nodup) :
    (∀ ds', ds'.Perm ds → ∀ a ∈ ds, ∀ b ∈ ds,
      Reading.dist (Readable.reading a) (Readable.reading b) < √r → Together ds' r a b) ↔
    WithinTransitive ds r := by
  constructor
  · intro h a ha b hb c hc hab hbc
    obtain ⟨l₁, l₂, hl⟩ := List.append_of_mem ha
    have hp : ((l₁ ++ l₂) ++ [a]).Perm ds := by
      rw [hl, List.append_assoc]
      exact List.Perm.append_left _ List.perm_append_comm
    have hn' : (((l₁ ++ l₂) ++ [a]).map Identified.id).Nodup := (hp.map _).nodup_iff.2 hn
    have h1 := (together_last hr hn' (hp.mem_iff.2 hb)).2 hab
    have h2 := h _ hp b hb c hc hbc
    exact (together_last hr hn' (hp.mem_iff.2 hc)).1 (together_trans hn' (hp.mem_iff.2 hb) h1 h2)
  · intro h ds' hp a ha b hb hab
    have hn' : (ds'.map Identified.id).Nodup := (hp.map _).nodup_iff.2 hn
    exact (together_of_transitive hr hn' (fun a ha b hb c hc => h a (hp.mem_iff.1 ha) b
      (hp.mem_iff.1 hb) c (hp.mem_iff.1 hc)) (hp.mem_iff.2 ha) (hp.mem_iff.2 hb)).2 hab

/-- C72: the clusters are the same for every order of the detections exactly if being within the
threshold is transitive among them. -/
theorem C72_order_iff (ds : List δ) (r : ℝ) (hr : 0 < r) (hn : (ds.map Identified.id).Nodup) :
    (∀ ds', ds'.Perm ds → ∀ a ∈ ds, ∀ b ∈ ds, Together ds' r a b ↔ Together ds r a b) ↔
    WithinTransitive ds r := by
  constructor
  · intro h
    refine (C72_documented_iff ds r hr hn).1 fun ds' hp a ha b hb hab => ?_
    obtain ⟨l₁, l₂, hl⟩ := List.append_of_mem ha
    have hp' : ((l₁ ++ l₂) ++ [a]).Perm ds := by
      rw [hl, List.append_assoc]
      exact List.Perm.append_left _ List.perm_append_comm
    have hn' : (((l₁ ++ l₂) ++ [a]).map Identified.id).Nodup := (hp'.map _).nodup_iff.2 hn
    rw [h ds' hp a ha b hb, ← h _ hp' a ha b hb]
    exact (together_last hr hn' (hp'.mem_iff.2 hb)).2 hab
  · intro h ds' hp a ha b hb
    have hn' : (ds'.map Identified.id).Nodup := (hp.map _).nodup_iff.2 hn
    rw [together_of_transitive hr hn ‹_› ha hb]
    exact together_of_transitive hr hn' (fun a ha b hb c hc => h a (hp.mem_iff.1 ha) b
      (hp.mem_iff.1 hb) c (hp.mem_iff.1 hc)) (hp.mem_iff.2 ha) (hp.mem_iff.2 hb)

/-- C72 is false in general: in the order 0, 1, 2 (threshold 2) the detections at 0 and 1
are in different clusters although they are within the threshold of each other; in the
order 0, 2, 1 all three are together. -/
theorem C72_order_matters :
    ∃ a b c : DynObj CtrvState Unit, ([a, b, c].map Identified.id).Nodup ∧
      Reading.dist (Readable.reading a) (Readable.reading b) < √2 ∧
      (clusterDetectionsDefault [a, b, c] 2).length = 2 ∧
      (¬ ∃ k ∈ clusterDetectionsDefault [a, b, c] 2, In a k ∧ In b k) ∧
      (clusterDetectionsDefault [a, c, b] 2).length = 1 := by
  classical
  set a := onAxis 1 0 with ha
  set b := onAxis 2 1 with hb
  set c := onAxis 3 2 with hc
  have hw : ∀ (n m : Fin 256) (x y : ℝ), Clusterable.sqDist (ClusterableOf.makePoint (onAxis n x))
      (onAxis m y) = (x - y) ^ 2 := fun n m x y => by
    rw [sqDist_eq_dist (makePoint_shows _), dist_onAxis, sq_abs]
  have hn : ([a, b, c].map Identified.id).Nodup := by
    rw [ha, hb, hc]; simp [Identified.id, onAxis]
  have hab : Identified.id b ≠ Identified.id a := id_onAxis (by decide) _ _
  have hbc : Identified.id c ≠ Identified.id b := id_onAxis (by decide) _ _
  have hca : Identified.id c ≠ Identified.id a := id_onAxis (by decide) _ _
  have w1 : Clusterable.sqDist (ClusterableOf.makePoint c) a = 4 := by rw [ha, hc, hw]; norm_num
  have w2 : Clusterable.sqDist (ClusterableOf.makePoint c) b = 1 := by rw [hb, hc, hw]; norm_num
  have w3 : Clusterable.sqDist (ClusterableOf.makePoint b) a = 1 := by rw [ha, hb, hw]; norm_num
  have w4 : Clusterable.sqDist (ClusterableOf.makePoint b) c = 1 := by rw [hb, hc, hw]; norm_num
  have e1 : clusterDetectionsDefault [a, b, c] 2 =
      [(ClusterOf.new.add c).add b, ClusterOf.new.add a] := by
    have : clusterDetectionsDefault [a, b, c] 2 =
      clusterDetections (fun p d => decide (Clusterable.sqDist p d < 2)) ([a, b] ++ [c]) := rfl
    rw [this, clusterDetections_concat]
    have f1 : [a, b].filter (fun d => decide (Clusterable.sqDist (ClusterableOf.makePoint c) d < 2))
        = [b] := by
      simp [List.filter_cons, w1, w2]; norm_num
    have f2 : [a, b].filter (fun d => !decide (Clusterable.sqDist (ClusterableOf.makePoint c) d < 2))
        = [a] := by
      simp [List.filter_cons, w1, w2]; norm_num
    rw [f1, f2]
    have : clusterDetections (fun p d => decide (Clusterable.sqDist p d < 2)) [a] =
      clusterDetections (fun p d => decide (Clusterable.sqDist p d < 2)) ([] ++ [a]) := rfl
    rw [this, clusterDetections_concat]
    simp [clusterDetections_nil]
  refine ⟨a, b, c, hn, ?_, ?_, ?_, ?_⟩
  · rw [ha, hb, dist_onAxis, Real.lt_sqrt (by positivity)]; norm_num
  · rw [e1]; rfl
  · rw [e1]
    rintro ⟨k, hk, h1, h2⟩
    have g1 : ((ClusterOf.new.add c).add b).Holds [b, c] :=
      (ClusterOf.Holds.new.add (ms := []) (by simp)).add (by simpa using hbc)
    have g2 : (ClusterOf.new.add a).Holds [a] := ClusterOf.Holds.new.add (by simp)
    simp only [List.mem_cons, List.not_mem_nil, or_false] at hk
    rcases hk with rfl | rfl
    · have := (in_iff g1 a).1 h1
      simp only [List.mem_cons, List.not_mem_nil, or_false] at this
      rcases this with h | h
      · exact hab (by rw [h])
      · exact hca (by rw [h])
    · have := (in_iff g2 b).1 h2
      simp only [List.mem_cons, List.not_mem_nil, or_false] at this
      exact hab (by rw [this])
  · have : clusterDetectionsDefault [a, c, b] 2 =
      clusterDetections (fun p d => decide (Clusterable.sqDist p d < 2)) ([a, c] ++ [b]) := rfl
    rw [this, clusterDetections_concat]
    have f2 : [a, c].filter (fun d => !decide (Clusterable.sqDist (ClusterableOf.makePoint b) d < 2))
        = [] := by
      simp [w3, w4]
    rw [f2, clusterDetections_nil]
    rfl

/-! ## Non-vacuity -/

/-- three detections with distinct UUIDs -/
example : ([onAxis 1 0, onAxis 2 1, onAxis 3 2].map Identified.id).Nodup := by
  simp [Identified.id, onAxis]

/-- a proper history with additions, a removal and a non-empty result -/
example : Proper [.add (onAxis 3 2), .remove ⟨[1]⟩, .centroid, .add (onAxis 2 1), .add (onAxis 1 0)] ∧
    members [.add (onAxis 3 2), .remove ⟨[1]⟩, .centroid, .add (onAxis 2 1), .add (onAxis 1 0)]
      = [onAxis 3 2, onAxis 2 1] := by
  simp [Proper, members, Identified.id, onAxis]

/-- two different detections heading 3π/2 -/
example : ∃ a b : DynObj CtrvState Unit, Identified.id a ≠ Identified.id b ∧
    (Readable.reading a).yaw ∈ Set.Ico π (2 * π) ∧
    (Readable.reading b).yaw = (Readable.reading a).yaw := by
  have hpi := Real.pi_pos
  refine ⟨⟨0, ⟨0, 0, 0, Angle.ofRad (3 * π / 2), 0⟩, (), ⟨[1]⟩, .unknown⟩,
    ⟨0, ⟨5, 0, 0, Angle.ofRad (3 * π / 2), 0⟩, (), ⟨[2]⟩, .unknown⟩, ?_, ?_, rfl⟩
  · simp [Identified.id]
  · simp only [Readable.reading]
    rw [Angle.getAngle_ofRad_of_range ⟨by positivity, by linarith⟩]
    exact ⟨by linarith, by linarith⟩

/-- detections 0, 1 and 100, 101 with threshold 4 are well separated: `R` is "both below
50 or both above" -/
example : ∀ x ∈ [0, 1, 100, 101], ∀ y ∈ [0, 1, 100, (101 : ℝ)],
    ((x - y) ^ 2 < 4 ↔ (x < 50 ↔ y < 50)) := by
  intro x hx y hy
  simp only [List.mem_cons, List.not_mem_nil, or_false] at hx hy
  rcases hx with rfl | rfl | rfl | rfl <;> rcases hy with rfl | rfl | rfl | rfl <;> norm_num

/-- both sides of `C72_order_iff`: with threshold 2, detections at 0, 1 and 100 are clustered in the
same way in every order, those at 0, 1 and 2 are not -/
example : WithinTransitive [onAxis 1 0, onAxis 2 1, onAxis 3 100] 2 ∧
    ¬ WithinTransitive [onAxis 1 0, onAxis 2 1, onAxis 3 2] 2 := by
  have h1 : (1 : ℝ) < √2 := Real.lt_sqrt_of_sq_lt (by norm_num)
  have h2 : √2 < 2 := (Real.sqrt_lt' (by norm_num)).2 (by norm_num)
  constructor
  · intro a ha b hb c hc
    simp only [List.mem_cons, List.not_mem_nil, or_false] at ha hb hc
    rcases ha with rfl | rfl | rfl <;> rcases hb with rfl | rfl | rfl <;>
      rcases hc with rfl | rfl | rfl <;> intro g1 g2 <;> simp only [dist_onAxis] at g1 g2 ⊢ <;>
      norm_num at g1 g2 ⊢ <;> linarith
  · intro h
    have := h (onAxis 1 0) (by simp) (onAxis 2 1) (by simp) (onAxis 3 2) (by simp)
    rw [dist_onAxis, dist_onAxis, dist_onAxis] at this
    norm_num at this

end Mot.Props
