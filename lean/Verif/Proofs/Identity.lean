import Verif.Spec.Identity
import Verif.Proofs.Period
import Mathlib.Algebra.Order.BigOperators.Group.Finset
/-!
# Lemmas about keeping objects apart
-/

namespace Mot

open Spec Manager

/-! ### Score maps -/

theorem mem_of_subset_length {p M : List (Uuid × Uuid)} (hp : p.Nodup)
    (hsub : ∀ x ∈ p, x ∈ M) (hlen : M.length ≤ p.length) (x : Uuid × Uuid) : x ∈ p ↔ x ∈ M :=
  ((hp.subperm hsub).perm_of_length_le hlen).mem_iff

/-- a one-to-one choice of scored pairs has at most as many pairs as there are tracks and detections -/
theorem length_le_counts {scores : ScoreMap} {M : List (Uuid × Uuid)} (hM : OneToOne M)
    (hsc : ∀ x ∈ M, Scored scores x.1 x.2) :
    M.length ≤ min (trackCount scores) (detectionCount scores) := by
  refine le_min ?_ ?_
  · rw [← List.length_map (·.1), ← List.toFinset_card_of_nodup hM.1]
    refine Finset.card_le_card fun u hu => ?_
    obtain ⟨x, hx, rfl⟩ := List.mem_map.1 (List.mem_toFinset.1 hu)
    exact mem_trackNames.2 ⟨_, hsc x hx⟩
  · rw [← List.length_map (·.2), ← List.toFinset_card_of_nodup hM.2]
    refine Finset.card_le_card fun u hu => ?_
    obtain ⟨x, hx, rfl⟩ := List.mem_map.1 (List.mem_toFinset.1 hu)
    exact mem_detectionNames.2 ⟨_, hsc x hx⟩

theorem trackCount_le_length {scores : ScoreMap} {M : List (Uuid × Uuid)}
    (h : ∀ t, ScoredTrack scores t → ∃ x ∈ M, x.1 = t) : trackCount scores ≤ M.length := by
  rw [← List.length_map (·.1)]
  refine (Finset.card_le_card (t := (M.map (·.1)).toFinset) fun u hu => ?_).trans
    (List.toFinset_card_le _)
  obtain ⟨x, hx, rfl⟩ := h u (mem_trackNames.1 hu)
  exact List.mem_toFinset.2 (List.mem_map.2 ⟨x, hx, rfl⟩)

theorem detectionCount_le_length {scores : ScoreMap} {M : List (Uuid × Uuid)}
    (h : ∀ d, ScoredDetection scores d → ∃ x ∈ M, x.2 = d) : detectionCount scores ≤ M.length := by
  rw [← List.length_map (·.2)]
  refine (Finset.card_le_card (t := (M.map (·.2)).toFinset) fun u hu => ?_).trans
    (List.toFinset_card_le _)
  obtain ⟨x, hx, rfl⟩ := h u (mem_detectionNames.1 hu)
  exact List.mem_toFinset.2 (List.mem_map.2 ⟨x, hx, rfl⟩)

/-- if the scored pairs are one-to-one, they are the association -/
theorem gated_pairs {solve : Solver} (hs : IsOptimalSolver solve) {scores : ScoreMap}
    (hbig : scores.entries.length < 2 ^ 64) (hr : ScoresIn scores (10 ^ 31))
    {M : List (Uuid × Uuid)} (hM : OneToOne M) (hsc : ∀ t d, Scored scores t d ↔ (t, d) ∈ M)
    {a : AssociationMap} (h : gnnAssociator solve scores = .ok a) (x : Uuid × Uuid) :
    x ∈ pairsOf a ↔ x ∈ M := by
  have hscM : ∀ x ∈ M, Scored scores x.1 x.2 := fun x hx => (hsc _ _).2 hx
  have h1 := length_le_counts hM hscM
  have h2 : trackCount scores ≤ M.length :=
    trackCount_le_length fun t ⟨d, hd⟩ => ⟨_, (hsc t d).1 hd, rfl⟩
  have h3 := Props.C22_no_gated_pair_if_avoidable_partial hs hbig hr h hM hscM (by omega)
  refine mem_of_subset_length (List.Nodup.of_map _ (Props.C19_one_to_one hs.perm hbig h).2.2.1.1)
    (fun y hy => (hsc _ _).1 (h3 y hy)) ?_ x
  rw [(Props.C20_card hs.perm hbig h).1]
  exact h1

theorem exists_maxScore {scores : ScoreMap} (hne : scores.entries ≠ []) {b : ℚ}
    (hb : ScoresIn scores b) :
    ∃ m, m ≤ b ∧ ScoresIn scores m ∧ ∃ k, scores.find? k = some (.fin m) := by
  obtain ⟨e, he, hmax⟩ := Finset.exists_max_image scores.entries.toFinset
    (fun e => match e.2 with | .fin q => q | _ => 0)
    (by obtain ⟨e, he⟩ := List.exists_mem_of_ne_nil _ hne; exact ⟨e, List.mem_toFinset.2 he⟩)
  have hk := SMap.find?_eq_some.2 (List.mem_toFinset.1 he)
  obtain ⟨m, hm, h0, h1⟩ := hb _ _ hk
  refine ⟨m, h1, ?_, e.1, by rw [hk, hm]⟩
  intro k s hks
  obtain ⟨q, rfl, hq, -⟩ := hb _ _ hks
  have := hmax (k, .fin q) (List.mem_toFinset.2 (SMap.find?_eq_some.1 hks))
  rw [hm] at this
  exact ⟨q, rfl, hq, this⟩

/-- a score that is larger by more than the resolution has a smaller cost -/
theorem costQ_lt {m s s' : ℚ} (hm : 0 < m) (hs : 0 ≤ s) (hs' : s' ≤ m)
    (hgap : s + 22 * m / 100000000 < s') : costQ m s' < costQ m s := by
  have h22 : 0 < 22 * m / 100000000 := by positivity
  have h1 := abs_le.1 (costQ_err hm hs (by linarith))
  have h2 := abs_le.1 (costQ_err hm (s := s') (by linarith) hs')
  have h3 : s / m + 22 / 100000000 < s' / m := by
    rw [lt_div_iff₀ hm, add_mul, div_mul_cancel₀ _ hm.ne']
    linarith [show 22 / 100000000 * m = 22 * m / 100000000 by ring]
  have : ((costQ m s' : ℤ) : ℚ) < (costQ m s : ℤ) := by linarith [h1.1, h2.2]
  exact_mod_cast this

/-- if everything is scored and a largest one-to-one choice has scores that are smaller than all
others by more than the resolution, it is the association -/
theorem nearest_pairs {solve : Solver} (hs : IsOptimalSolver solve) {scores : ScoreMap}
    (hbig : scores.entries.length < 2 ^ 64) (hc : Complete scores) {b : ℚ}
    (hb : ScoresIn scores b) (hbf : b ≤ fltMaxQ) {M : List (Uuid × Uuid)} (hM : OneToOne M)
    (hsc : ∀ x ∈ M, Scored scores x.1 x.2)
    (hlen : min (trackCount scores) (detectionCount scores) ≤ M.length)
    (hgap : ∀ x ∈ M, ∀ y, Scored scores y.1 y.2 → y ∉ M →
      scoreVal scores x + 22 * b / 100000000 < scoreVal scores y)
    {a : AssociationMap} (h : gnnAssociator solve scores = .ok a) (x : Uuid × Uuid) :
    x ∈ pairsOf a ↔ x ∈ M := by
  have hne : scores.entries ≠ [] := by
    intro h0
    have : scores = SMap.empty := by cases scores; cases h0; rfl
    rw [this, Props.C23_empty_is_ub] at h
    cases h
  obtain ⟨m, hmb, hm, hmax⟩ := exists_maxScore hne hb
  obtain ⟨hpos, hle⟩ := Props.cost_total_maximal hs hbig hc hm (hmb.trans hbf) hmax h hM hsc
  obtain ⟨-, -, hone, hmem⟩ := Props.C19_one_to_one hs.perm hbig h
  have hpn : (pairsOf a).Nodup := List.Nodup.of_map _ hone.1
  have hMn : M.Nodup := List.Nodup.of_map _ hM.1
  have hcard := (Props.C20_card hs.perm hbig h).1
  have hup := length_le_counts hM hsc
  have hval : ∀ y : Uuid × Uuid, Scored scores y.1 y.2 →
      0 ≤ scoreVal scores y ∧ scoreVal scores y ≤ m := by
    intro y hy
    obtain ⟨s, hs'⟩ := Option.isSome_iff_exists.1 hy
    obtain ⟨q, rfl, h0, h1⟩ := hm _ _ hs'
    unfold scoreVal
    rw [hs']
    exact ⟨h0, h1⟩
  refine mem_of_subset_length hpn (fun y hy => ?_) (by omega) x
  by_contra hyM
  set P := (pairsOf a).toFinset
  set Q := M.toFinset
  have hPQ : P.card = Q.card := by
    rw [List.toFinset_card_of_nodup hpn, List.toFinset_card_of_nodup hMn]
    omega
  rw [← List.sum_toFinset _ hpn, ← List.sum_toFinset _ hMn] at hle
  have hcd : (P \ Q).card = (Q \ P).card := Finset.card_sdiff_comm hPQ
  have hne' : (P \ Q).Nonempty := ⟨y, Finset.mem_sdiff.2
    ⟨List.mem_toFinset.2 hy, fun h => hyM (List.mem_toFinset.1 h)⟩⟩
  have hne'' : (Q \ P).Nonempty := by
    rw [← Finset.card_pos, ← hcd]; exact Finset.card_pos.2 hne'
  set f : Uuid × Uuid → ℤ := fun x => costQ m (scoreVal scores x)
  obtain ⟨z, hz, hzmin⟩ := Finset.exists_min_image (Q \ P) f hne''
  have hzM := List.mem_toFinset.1 (Finset.mem_sdiff.1 hz).1
  have hlt : ∑ x ∈ P \ Q, f x < ∑ x ∈ P \ Q, f z := by
    refine Finset.sum_lt_sum_of_nonempty hne' fun w hw => ?_
    obtain ⟨hw1, hw2⟩ := Finset.mem_sdiff.1 hw
    have hwP := List.mem_toFinset.1 hw1
    have hwM : w ∉ M := fun h => hw2 (List.mem_toFinset.2 h)
    have hws : Scored scores w.1 w.2 := hc _ _ (hmem w hwP).1 (hmem w hwP).2
    refine costQ_lt hpos (hval z (hsc z hzM)).1 (hval w hws).2 ?_
    have := hgap z hzM w hws hwM
    have : 22 * m / 100000000 ≤ 22 * b / 100000000 := by linarith
    linarith
  have hge : ∑ x ∈ P \ Q, f z ≤ ∑ x ∈ Q \ P, f x := by
    rw [Finset.sum_const, hcd]
    exact Finset.card_nsmul_le_sum _ _ _ hzmin
  have e1 : ∑ x ∈ P, f x = ∑ x ∈ P \ Q, f x + ∑ x ∈ P ∩ Q, f x := by
    rw [← Finset.sum_sdiff (Finset.inter_subset_left : P ∩ Q ⊆ P), Finset.sdiff_inter_self_left]
  have e2 : ∑ x ∈ Q, f x = ∑ x ∈ Q \ P, f x + ∑ x ∈ P ∩ Q, f x := by
    rw [← Finset.sum_sdiff (Finset.inter_subset_right : P ∩ Q ⊆ Q), Finset.sdiff_inter_self_right]
  have : ∑ x ∈ Q, f x ≤ ∑ x ∈ P, f x := hle
  rw [e1, e2] at this
  linarith

/-! ### Objects -/

section
variable {τ S C ι : Type} [TrackOps τ S C] {label : Uuid → ι}

theorem uuids_nodup {l : List τ} (h : (l.map fun x => label (TrackOps.uuid x)).Nodup) :
    (l.map TrackOps.uuid).Nodup := by
  refine List.Nodup.of_map label ?_
  rw [List.map_map]
  exact h

theorem eq_of_label {l : List τ} (h : (l.map fun x => label (TrackOps.uuid x)).Nodup) {x y : τ}
    (hx : x ∈ l) (hy : y ∈ l) (he : label (TrackOps.uuid x) = label (TrackOps.uuid y)) : x = y :=
  List.inj_on_of_nodup_map (f := fun x => label (TrackOps.uuid x)) h hx hy he

/-- the pairs that show the same object, as a one-to-one list -/
theorem exists_ownPairs {ts ds : List τ}
    (hT : (ts.map fun x => label (TrackOps.uuid x)).Nodup)
    (hD : (ds.map fun x => label (TrackOps.uuid x)).Nodup) :
    ∃ M : List (Uuid × Uuid), OneToOne M ∧ ∀ u v, (u, v) ∈ M ↔ ∃ t ∈ ts, ∃ d ∈ ds,
      TrackOps.uuid t = u ∧ TrackOps.uuid d = v ∧ label u = label v := by
  classical
  let g : τ → Option τ := fun t => ds.find? fun d => decide (label (TrackOps.uuid t) = label (TrackOps.uuid d))
  have hg : ∀ t d, g t = some d ↔ d ∈ ds ∧ label (TrackOps.uuid t) = label (TrackOps.uuid d) := by
    intro t d
    constructor
    · intro h
      exact ⟨List.mem_of_find?_eq_some h, by simpa using List.find?_some h⟩
    · rintro ⟨hd, hl⟩
      rcases hx : g t with _ | d'
      · have := List.find?_eq_none.1 hx d hd
        simp [hl] at this
      · have h1 := List.mem_of_find?_eq_some hx
        have h2 : label (TrackOps.uuid t) = label (TrackOps.uuid d') := by simpa using List.find?_some hx
        rw [eq_of_label hD h1 hd (h2.symm.trans hl)]
  have hinj : ∀ t ∈ ts, ∀ t' ∈ ts, ∀ d, g t = some d → g t' = some d → t = t' := by
    intro t ht t' ht' d h h'
    exact eq_of_label hT ht ht' (((hg t d).1 h).2.trans ((hg t' d).1 h').2.symm)
  have hTn : ts.Nodup := List.Nodup.of_map _ hT
  let f : τ → Option (Uuid × Uuid) := fun t => (g t).map fun d => (TrackOps.uuid t, TrackOps.uuid d)
  refine ⟨ts.filterMap f, ⟨?_, ?_⟩, ?_⟩
  · refine ((uuids_nodup hT).sublist ?_)
    induction ts with
    | nil => simp
    | cons t ts ih =>
      have ih := ih (List.nodup_cons.1 hT).2 (fun x hx y hy => hinj x (by simp [hx]) y (by simp [hy]))
        (List.nodup_cons.1 hTn).2
      rcases hx : g t with _ | d
      · rw [List.filterMap_cons_none (by simp only [f, hx, Option.map_none])]
        exact ih.trans (List.sublist_cons_self _ _)
      · rw [List.filterMap_cons_some (b := (TrackOps.uuid t, TrackOps.uuid d))
          (by simp only [f, hx, Option.map_some])]
        exact ih.cons_cons _
  · have hDu := uuids_nodup hD
    induction ts with
    | nil => simp
    | cons t ts ih =>
      have ih := ih (List.nodup_cons.1 hT).2 (fun x hx y hy => hinj x (by simp [hx]) y (by simp [hy]))
        (List.nodup_cons.1 hTn).2
      rcases hx : g t with _ | d
      · rw [List.filterMap_cons_none (by simp only [f, hx, Option.map_none])]
        exact ih
      · rw [List.filterMap_cons_some (b := (TrackOps.uuid t, TrackOps.uuid d))
          (by simp only [f, hx, Option.map_some])]
        rw [List.map_cons, List.nodup_cons]
        refine ⟨?_, ih⟩
        intro hmem
        obtain ⟨x, hxm, hxu⟩ := List.mem_map.1 hmem
        obtain ⟨t', ht', hft⟩ := List.mem_filterMap.1 hxm
        obtain ⟨d', hd', rfl⟩ := Option.map_eq_some_iff.1 hft
        have := eq_of_uuid hDu ((hg _ _).1 hd').1 ((hg _ _).1 hx).1 hxu
        subst this
        have := hinj t' (by simp [ht']) t (by simp) d' hd' hx
        subst this
        exact (List.nodup_cons.1 hTn).1 ht'
  · intro u v
    rw [List.mem_filterMap]
    constructor
    · rintro ⟨t, ht, hft⟩
      obtain ⟨d, hd, he⟩ := Option.map_eq_some_iff.1 hft
      cases he
      exact ⟨t, ht, d, ((hg _ _).1 hd).1, rfl, rfl, ((hg _ _).1 hd).2⟩
    · rintro ⟨t, ht, d, hd, rfl, rfl, hl⟩
      exact ⟨t, ht, Option.map_eq_some_iff.2 ⟨d, (hg t d).2 ⟨hd, hl⟩, rfl⟩⟩

/-- the entries of the gated score map -/
theorem find?_survives {ts ds : List τ} {metric : τ → τ → Option FP} {gate : FP → Bool}
    (hT : (ts.map TrackOps.uuid).Nodup) (hD : (ds.map TrackOps.uuid).Nodup) {t d : τ}
    (ht : t ∈ ts) (hd : d ∈ ds) (s : FP) :
    (pruneScoresIf (scoreTracksAndDetections ts ds metric) gate).find?
      (mkPair (TrackOps.uuid t) (TrackOps.uuid d)) = some s ↔ Survives metric gate t d s := by
  rw [Props.C18_prune_iff, Props.C16_value_of_distinct ts ds metric hT hD ht hd]
  rfl

theorem find?_survives' {ts ds : List τ} {metric : τ → τ → Option FP} {gate : FP → Bool}
    (hT : (ts.map TrackOps.uuid).Nodup) (hD : (ds.map TrackOps.uuid).Nodup) {k : UuidPair} {s : FP}
    (h : (pruneScoresIf (scoreTracksAndDetections ts ds metric) gate).find? k = some s) :
    ∃ t ∈ ts, ∃ d ∈ ds, k = mkPair (TrackOps.uuid t) (TrackOps.uuid d) ∧
      Survives metric gate t d s := by
  have hk : k = mkPair (ofLex k).1 (ofLex k).2 := rfl
  obtain ⟨t, ht, d, hd, h1, h2, -⟩ := scored_present (t := (ofLex k).1) (d := (ofLex k).2)
    (Option.isSome_iff_exists.2 ⟨s, h⟩)
  rw [← h1, ← h2] at hk
  rw [hk] at h
  exact ⟨t, ht, d, hd, hk, (find?_survives hT hD ht hd s).1 h⟩

/-- the association of objects that can be told apart -/
theorem associate_apart {ts ds : List τ} {metric : τ → τ → Option FP} {gate : FP → Bool}
    (hT : (ts.map fun x => label (TrackOps.uuid x)).Nodup)
    (hD : (ds.map fun x => label (TrackOps.uuid x)).Nodup)
    (hbig : ts.length * ds.length < 2 ^ 64) {solve : Solver} (hs : IsOptimalSolver solve)
    (hap : Apart label metric gate ts ds) :
    ∃ a, associateStep solve metric gate ts ds = .ok a ∧
      ∀ u v, (u, v) ∈ pairsOf a ↔ ∃ t ∈ ts, ∃ d ∈ ds,
        TrackOps.uuid t = u ∧ TrackOps.uuid d = v ∧ label u = label v := by
  obtain ⟨M, hM, hmem⟩ := exists_ownPairs hT hD
  have hTu := uuids_nodup hT
  have hDu := uuids_nodup hD
  set scores := pruneScoresIf (scoreTracksAndDetections ts ds metric) gate with hsc
  have hlen : scores.entries.length < 2 ^ 64 :=
    lt_of_le_of_lt ((prune_length_le _ _).trans (score_length_le _ _ _)) hbig
  have hfind : ∀ {t d : τ}, t ∈ ts → d ∈ ds → ∀ s, scores.find?
      (mkPair (TrackOps.uuid t) (TrackOps.uuid d)) = some s ↔ Survives metric gate t d s :=
    fun ht hd s => find?_survives hTu hDu ht hd s
  have hfind' : ∀ {k s}, scores.find? k = some s → ∃ t ∈ ts, ∃ d ∈ ds,
      k = mkPair (TrackOps.uuid t) (TrackOps.uuid d) ∧ Survives metric gate t d s :=
    fun h => find?_survives' hTu hDu h
  suffices key : ∃ a, gnnAssociator solve scores = .ok a ∧ ∀ x, x ∈ pairsOf a ↔ x ∈ M by
    obtain ⟨a, ha, h⟩ := key
    exact ⟨a, ha, fun u v => (h (u, v)).trans (hmem u v)⟩
  rcases hap with hap | ⟨b, hap⟩
  · have hr : ScoresIn scores (10 ^ 31) := by
      intro k s hk
      obtain ⟨t, ht, d, hd, -, h⟩ := hfind' hk
      exact hap.range t ht d hd s h
    have hscM : ∀ u v, Scored scores u v ↔ (u, v) ∈ M := by
      intro u v
      rw [hmem]
      constructor
      · intro h
        obtain ⟨s, h⟩ := Option.isSome_iff_exists.1 h
        obtain ⟨t, ht, d, hd, hk, hsv⟩ := hfind' h
        have hk : (u, v) = (TrackOps.uuid t, TrackOps.uuid d) := hk
        cases hk
        exact ⟨t, ht, d, hd, rfl, rfl, (hap.own t ht d hd).1 ⟨s, hsv⟩⟩
      · rintro ⟨t, ht, d, hd, rfl, rfl, hl⟩
        obtain ⟨s, h⟩ := (hap.own t ht d hd).2 hl
        exact Option.isSome_iff_exists.2 ⟨s, (hfind ht hd s).2 h⟩
    obtain ⟨t, ht, d, hd, q, hsv, hor⟩ := hap.defined
    have hk := (hfind ht hd _).2 hsv
    obtain ⟨a, ha⟩ := Props.C23_returns_partial hs.perm scores hlen (Props.ScoresIn.mono hr Props.e31_le') (by
      rcases hor with h0 | ⟨t', ht', d', hd', hl', hne⟩
      · exact .inl ⟨_, q, hk, h0⟩
      · refine .inr ⟨?_, ?_⟩
        · intro h0
          have := SMap.find?_eq_some.1 hk
          rw [h0] at this
          cases this
        · intro hc
          have h1 : ScoredTrack scores (TrackOps.uuid t) := ⟨_, Option.isSome_iff_exists.2 ⟨_, hk⟩⟩
          obtain ⟨s', hs'⟩ := (hap.own t' ht' d' hd').2 hl'
          have h2 : ScoredDetection scores (TrackOps.uuid d') :=
            ⟨_, Option.isSome_iff_exists.2 ⟨_, (hfind ht' hd' s').2 hs'⟩⟩
          obtain ⟨s'', hs''⟩ := Option.isSome_iff_exists.1 (hc _ _ h1 h2)
          have := (hap.own t ht d' hd').1 ⟨s'', (hfind ht hd' s'').1 hs''⟩
          exact hne (hl'.trans this.symm))
    exact ⟨a, ha, gated_pairs hs hlen hr hM hscM ha⟩
  · have hr : ScoresIn scores b := by
      intro k s hk
      obtain ⟨t, ht, d, hd, -, h⟩ := hfind' hk
      obtain ⟨q, hq, h0, h1⟩ := hap.range t ht d hd
      have := h.1.symm.trans hq.1
      cases this
      exact ⟨q, rfl, h0, h1⟩
    have hscored : ∀ {t d : τ}, t ∈ ts → d ∈ ds → Scored scores (TrackOps.uuid t) (TrackOps.uuid d) := by
      intro t d ht hd
      obtain ⟨q, hq, -⟩ := hap.range t ht d hd
      exact Option.isSome_iff_exists.2 ⟨_, (hfind ht hd _).2 hq⟩
    have hpres : ∀ {u v}, Scored scores u v → ∃ t ∈ ts, ∃ d ∈ ds,
        TrackOps.uuid t = u ∧ TrackOps.uuid d = v := by
      intro u v h
      obtain ⟨t, ht, d, hd, h1, h2, -⟩ := scored_present h
      exact ⟨t, ht, d, hd, h1, h2⟩
    have hc : Complete scores := by
      rintro u v ⟨v', h1⟩ ⟨u', h2⟩
      obtain ⟨t, ht, -, -, rfl, -⟩ := hpres h1
      obtain ⟨-, -, d, hd, -, rfl⟩ := hpres h2
      exact hscored ht hd
    have hval : ∀ {t d : τ} (ht : t ∈ ts) (hd : d ∈ ds), ∃ q, Survives metric gate t d (.fin q) ∧
        scoreVal scores (TrackOps.uuid t, TrackOps.uuid d) = q := by
      intro t d ht hd
      obtain ⟨q, hq, -⟩ := hap.range t ht d hd
      refine ⟨q, hq, ?_⟩
      unfold scoreVal
      rw [(hfind ht hd _).2 hq]
    obtain ⟨t, ht, d, hd, q, hsv, h0⟩ := hap.positive
    obtain ⟨a, ha⟩ := Props.C23_returns_partial hs.perm scores hlen (Props.ScoresIn.mono hr hap.bound)
      (.inl ⟨_, q, (hfind ht hd _).2 hsv, h0⟩)
    refine ⟨a, ha, nearest_pairs hs hlen hc hr hap.bound hM ?_ ?_ ?_ ha⟩
    · rintro ⟨u, v⟩ hx
      obtain ⟨t, ht, d, hd, rfl, rfl, -⟩ := (hmem u v).1 hx
      exact hscored ht hd
    · rcases hap.served with h | h
      · refine (min_le_left _ _).trans (trackCount_le_length fun u ⟨v, hv⟩ => ?_)
        obtain ⟨t, ht, -, -, rfl, -⟩ := hpres hv
        obtain ⟨d, hd, hl⟩ := h t ht
        exact ⟨_, (hmem _ _).2 ⟨t, ht, d, hd, rfl, rfl, hl⟩, rfl⟩
      · refine (min_le_right _ _).trans (detectionCount_le_length fun v ⟨u, hv⟩ => ?_)
        obtain ⟨-, -, d, hd, -, rfl⟩ := hpres hv
        obtain ⟨t, ht, hl⟩ := h d hd
        exact ⟨_, (hmem _ _).2 ⟨t, ht, d, hd, rfl, rfl, hl⟩, rfl⟩
    · rintro ⟨u, v⟩ hx ⟨u', v'⟩ hy hyM
      obtain ⟨t, ht, d, hd, rfl, rfl, hl⟩ := (hmem u v).1 hx
      obtain ⟨t', ht', d', hd', e1, e2⟩ := hpres hy
      simp only at e1 e2
      subst e1 e2
      have hne : label (TrackOps.uuid t') ≠ label (TrackOps.uuid d') := fun h =>
        hyM ((hmem _ _).2 ⟨t', ht', d', hd', rfl, rfl, h⟩)
      obtain ⟨q, hq, e3⟩ := hval ht hd
      obtain ⟨q', hq', e4⟩ := hval ht' hd'
      rw [e3, e4]
      exact hap.gap t ht d hd t' ht' d' hd' q q' hl hne hq hq'

end

end Mot
