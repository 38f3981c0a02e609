import Verif.Proofs.Cycle
/-!
# Properties of the tracking cycle (C68, C69, C73)
-/

namespace Mot.Props

open Mot Spec Manager

/-! ## C68 -/

/-- C68 is false: in every scene with too few CTRV detections and too few CTRA tracks (or
the other way round) the fusion step is undefined behaviour, for every solver that
returns permutations. -/
theorem C68_unbalanced_is_ub {solve : Solver} (hs : IsPermSolver solve) {ts ds : List MotObj}
    (hT : (ts.map TrackOps.uuid).Nodup) (hD : (ds.map TrackOps.uuid).Nodup)
    (hbig : ts.length * ds.length < 2 ^ 64) {metric : MotObj → MotObj → Option FP}
    (hm : IsLibraryMetric metric) {gate : FP → Bool}
    (hg : ∀ t ∈ ts, ∀ d ∈ ds, ∀ s, metric t d = some s → gate s = false)
    (hu : Unbalanced ts ds) {a : AssociationMap}
    (h : associateStep solve metric gate ts ds = .ok a) :
    (∃ p ∈ associatedPairs a ts ds, p.1.isLeft ≠ p.2.isLeft) ∧
    (fuseAssociations a ts ds ciVisitor).IsUb := by
  obtain ⟨u1, u2, u3, u4, hu⟩ := hu
  set scores := pruneScoresIf (scoreTracksAndDetections ts ds metric) gate with hsc
  have hbig' : scores.entries.length < 2 ^ 64 :=
    lt_of_le_of_lt ((prune_length_le _ _).trans (score_length_le _ _ _)) hbig
  have hiff := fun {t d : MotObj} (ht : t ∈ ts) (hd : d ∈ ds) =>
    scored_iff_model (gate := gate) hm hT hD hg ht hd
  rw [← hsc] at hiff
  have hmate : ∀ {l : List MotObj}, 1 ≤ ctrvCount l → 1 ≤ ctraCount l → ∀ b : Bool,
      ∃ x ∈ l, x.isLeft = b := by
    intro l h1 h2 b
    cases b
    · exact exists_ctra h2
    · exact exists_ctrv h1
  have hT' : ts.length ≤ trackCount scores := le_trackCount hT fun t ht => by
    obtain ⟨d, hd, he⟩ := hmate u3 u4 t.isLeft
    exact ⟨_, (hiff ht hd).2 he.symm⟩
  have hD' : ds.length ≤ detectionCount scores := le_detectionCount hD fun d hd => by
    obtain ⟨t, ht, he⟩ := hmate u1 u2 d.isLeft
    exact ⟨_, (hiff ht hd).2 he⟩
  have hpair : ∃ p ∈ associatedPairs a ts ds, p.1.isLeft ≠ p.2.isLeft := by
    obtain ⟨x, hx, hns⟩ := C22_gated_pair_forced hs hbig' h (by
      intro l hl hlsc
      have hex : ∀ x ∈ l, ∃ t ∈ ts, ∃ d ∈ ds, TrackOps.uuid t = x.1 ∧ TrackOps.uuid d = x.2 ∧
          t.isLeft = d.isLeft := by
        intro x hx
        have hx := hlsc x hx
        obtain ⟨t, ht, d, hd, e1, e2, -⟩ := scored_present hx
        rw [← e1, ← e2] at hx
        exact ⟨t, ht, d, hd, e1, e2, (hiff ht hd).1 hx⟩
      have l1 := one_to_one_le (fun o : MotObj => o.isLeft) hl hex
      have l2 := one_to_one_le (fun o : MotObj => !o.isLeft) hl
        (fun x hx => by
          obtain ⟨t, ht, d, hd, e1, e2, e3⟩ := hex x hx
          exact ⟨t, ht, d, hd, e1, e2, by rw [e3]⟩)
      simp only [Bool.not_not] at l2
      have c1 := count_add ts
      have c2 := count_add ds
      unfold ctrvCount ctraCount at *
      omega)
    obtain ⟨-, -, -, hpres⟩ := C19_one_to_one hs hbig' h
    obtain ⟨⟨d', h1⟩, ⟨t', h2⟩⟩ := hpres x hx
    obtain ⟨t, ht, -, -, e1, -⟩ := scored_present h1
    obtain ⟨-, -, d, hd, -, e2, -⟩ := scored_present h2
    refine ⟨(t, d), ?_, fun he => hns ?_⟩
    · rw [mem_associatedPairs, e1, e2]
      exact ⟨ht, hd, mem_pairsOf_iff.1 hx⟩
    · rw [← e1, ← e2]
      exact (hiff ht hd).2 he
  refine ⟨hpair, ?_⟩
  obtain ⟨p, hp, hne⟩ := hpair
  rcases fuse_not_throw a ts ds with ⟨out, ho⟩ | h
  · obtain ⟨x, -, hx⟩ := fuse_pair ho hp
    rw [ciVisitor_ub_of_model hne] at hx
    cases hx
  · exact h

/-- C68, what holds: in every other scene an optimal solver never pairs objects of
different models (scores in [0, 10^31]); with positive definite covariances the fusion
then succeeds. -/
theorem C68_not_unbalanced_partial {solve : Solver} (hs : IsOptimalSolver solve) {ts ds : List MotObj}
    (hT : (ts.map TrackOps.uuid).Nodup) (hD : (ds.map TrackOps.uuid).Nodup)
    (hbig : ts.length * ds.length < 2 ^ 64) {metric : MotObj → MotObj → Option FP}
    (hm : IsLibraryMetric metric) {gate : FP → Bool}
    (hg : ∀ t ∈ ts, ∀ d ∈ ds, ∀ s, metric t d = some s →
      gate s = false ∧ ∃ q : ℚ, s = .fin q ∧ 0 ≤ q ∧ q ≤ 10 ^ 31)
    (hb : ¬ Unbalanced ts ds) {a : AssociationMap}
    (h : associateStep solve metric gate ts ds = .ok a) :
    (∀ p ∈ associatedPairs a ts ds, p.1.isLeft = p.2.isLeft) ∧
    ((∀ o ∈ ts ++ ds, CovPosDef o) → (fuseAssociations a ts ds ciVisitor).IsOk) := by
  set scores := pruneScoresIf (scoreTracksAndDetections ts ds metric) gate with hsc
  have hbig' : scores.entries.length < 2 ^ 64 :=
    lt_of_le_of_lt ((prune_length_le _ _).trans (score_length_le _ _ _)) hbig
  have hiff := fun {t d : MotObj} (ht : t ∈ ts) (hd : d ∈ ds) =>
    scored_iff_model (gate := gate) hm hT hD (fun t ht d hd s hs => (hg t ht d hd s hs).1) ht hd
  rw [← hsc] at hiff
  have hr : ScoresIn scores (10 ^ 31) := by
    intro k s hk
    have h1 := ((C18_prune_iff _ gate _ s).1 hk).1
    obtain ⟨t, ht, d, hd, e1, e2, -⟩ := (C16_entry_iff ts ds metric (ofLex k).1 (ofLex k).2).1
      (Option.isSome_iff_exists.2 ⟨s, h1⟩)
    have h2 := C16_value_of_distinct ts ds metric hT hD ht hd
    rw [e1, e2] at h2
    exact (hg t ht d hd s (h2.symm.trans h1)).2
  -- pair off the objects of each model
  let us (l : List MotObj) (b : Bool) : List Uuid := (l.filter fun o => o.isLeft == b).map TrackOps.uuid
  let l := (us ts true).zip (us ds true) ++ (us ts false).zip (us ds false)
  have hdisj : ∀ {l : List MotObj}, (l.map TrackOps.uuid).Nodup → (us l true ++ us l false).Nodup := by
    intro l hl
    refine List.nodup_append.2 ⟨hl.sublist (List.filter_sublist.map _),
      hl.sublist (List.filter_sublist.map _), ?_⟩
    rintro u h1 v h2 rfl
    obtain ⟨x, hx, rfl⟩ := List.mem_map.1 h1
    obtain ⟨y, hy, he⟩ := List.mem_map.1 h2
    obtain ⟨hx, hx'⟩ := List.mem_filter.1 hx
    obtain ⟨hy, hy'⟩ := List.mem_filter.1 hy
    have := eq_of_uuid hl hy hx he
    subst this
    simp only [beq_iff_eq] at hx' hy'
    rw [hx'] at hy'; cases hy'
  have hone : OneToOne l := by
    constructor
    · refine (hdisj hT).sublist ?_
      simp only [l, List.map_append]
      exact List.Sublist.append (map_fst_zip_sublist _ _) (map_fst_zip_sublist _ _)
    · refine (hdisj hD).sublist ?_
      simp only [l, List.map_append]
      exact List.Sublist.append (map_snd_zip_sublist _ _) (map_snd_zip_sublist _ _)
  have hlsc : ∀ x ∈ l, Scored scores x.1 x.2 := by
    have key : ∀ b, ∀ x ∈ (us ts b).zip (us ds b), Scored scores x.1 x.2 := by
      rintro b ⟨u, v⟩ hx
      obtain ⟨h1, h2⟩ := List.of_mem_zip hx
      obtain ⟨t, ht, rfl⟩ := List.mem_map.1 h1
      obtain ⟨d, hd, rfl⟩ := List.mem_map.1 h2
      obtain ⟨ht, ht'⟩ := List.mem_filter.1 ht
      obtain ⟨hd, hd'⟩ := List.mem_filter.1 hd
      simp only [beq_iff_eq] at ht' hd'
      exact (hiff ht hd).2 (ht'.trans hd'.symm)
    intro x hx
    rcases List.mem_append.1 hx with hx | hx
    · exact key _ x hx
    · exact key _ x hx
  have hle := C22_most_scored_pairs_partial hs hbig' hr h hone hlsc
  have hcount : ∀ m : List MotObj, (us m true).length = ctrvCount m ∧
      (us m false).length = ctraCount m := by
    intro m
    simp only [us, List.length_map, ctrvCount, ctraCount]
    constructor
    · congr 2; funext o; cases o.isLeft <;> rfl
    · congr 2; funext o; cases o.isLeft <;> rfl
  have hlen : l.length = min (ctrvCount ts) (ctrvCount ds) + min (ctraCount ts) (ctraCount ds) := by
    simp only [l, List.length_append, List.length_zip, hcount]
  have hall : ∀ x ∈ pairsOf a, Scored scores x.1 x.2 := by
    have h2 := List.length_filter_le (fun x => decide (Scored scores x.1 x.2)) (pairsOf a)
    have h3 := (C20_card hs.perm hbig' h).1
    have h4 := trackCount_le (ts := ts) (ds := ds) (metric := metric) (gate := gate)
    have h5 := detectionCount_le (ts := ts) (ds := ds) (metric := metric) (gate := gate)
    rw [← hsc] at h4 h5
    have c1 := count_add ts
    have c2 := count_add ds
    have t1 := h4 (fun _ => true) (fun _ _ _ _ _ => rfl)
    have t2 := h5 (fun _ => true) (fun _ _ _ _ _ => rfl)
    rw [List.filter_true] at t1 t2
    -- if one model is missing on one side, only the other model is scored
    have hv : ctraCount ts = 0 ∨ ctraCount ds = 0 →
        trackCount scores ≤ ctrvCount ts ∧ detectionCount scores ≤ ctrvCount ds := by
      intro h0
      have hboth : ∀ t ∈ ts, ∀ d ∈ ds, (metric t d).isSome → t.isLeft = true ∧ d.isLeft = true := by
        intro t ht d hd hs
        have := model_of_isSome hm hs
        rcases h0 with h0 | h0
        · have h6 := isLeft_of_ctra_zero h0 ht; exact ⟨h6, this ▸ h6⟩
        · have h6 := isLeft_of_ctra_zero h0 hd; exact ⟨this.trans h6, h6⟩
      exact ⟨h4 _ fun t ht d hd hs => (hboth t ht d hd hs).1,
        h5 _ fun t ht d hd hs => (hboth t ht d hd hs).2⟩
    have ha : ctrvCount ts = 0 ∨ ctrvCount ds = 0 →
        trackCount scores ≤ ctraCount ts ∧ detectionCount scores ≤ ctraCount ds := by
      intro h0
      have hboth : ∀ t ∈ ts, ∀ d ∈ ds, (metric t d).isSome → t.isLeft = false ∧ d.isLeft = false := by
        intro t ht d hd hs
        have := model_of_isSome hm hs
        rcases h0 with h0 | h0
        · have h6 := isLeft_of_ctrv_zero h0 ht; exact ⟨h6, this ▸ h6⟩
        · have h6 := isLeft_of_ctrv_zero h0 hd; exact ⟨this.trans h6, h6⟩
      exact ⟨h4 _ fun t ht d hd hs => by simp only [(hboth t ht d hd hs).1, Bool.not_false],
        h5 _ fun t ht d hd hs => by simp only [(hboth t ht d hd hs).2, Bool.not_false]⟩
    have heq : ((pairsOf a).filter fun x => decide (Scored scores x.1 x.2)).length =
        (pairsOf a).length := by
      unfold Unbalanced at hb
      omega
    intro x hx
    simpa using List.length_filter_eq_length_iff.1 heq x hx
  have hmodel : ∀ p ∈ associatedPairs a ts ds, p.1.isLeft = p.2.isLeft := by
    rintro ⟨t, d⟩ hp
    obtain ⟨ht, hd, us, h1, h2⟩ := (mem_associatedPairs a ts ds t d).1 hp
    exact (hiff ht hd).1 (hall (TrackOps.uuid t, TrackOps.uuid d) (mem_pairsOf_iff.2 ⟨us, h1, h2⟩))
  refine ⟨hmodel, fun hpd => ?_⟩
  by_contra hno
  have hno' : ∀ out, fuseAssociations a ts ds ciVisitor ≠ .ok out := by
    intro out ho; rw [ho] at hno; exact hno (by simp)
  obtain ⟨pre, ⟨t, d⟩, post, hl, -, hbad⟩ := C29_failure a ts ds ciVisitor hno'
  have hp : (t, d) ∈ associatedPairs a ts ds := by rw [hl]; simp
  obtain ⟨ht, hd, -⟩ := (mem_associatedPairs a ts ds t d).1 hp
  have hmod := hmodel _ hp
  have h1 := hpd t (by simp [ht])
  have h2 := hpd d (by simp [hd])
  obtain ⟨f, hf⟩ := C30_total t d (by
    match t, d with
    | .inl _, .inl _ => exact ⟨h1, h2⟩
    | .inr _, .inr _ => exact ⟨h1, h2⟩
    | .inl _, .inr _ => cases hmod
    | .inr _, .inl _ => cases hmod)
  rcases hbad with ⟨e, he, -⟩ | ⟨w, hw, -⟩
  · rw [hf] at he; cases he
  · rw [hf] at hw; cases hw

/-- C68 decided: with an optimal solver and scores in [0, 10^31], the fusion step gets only
pairs of one motion model exactly in the scenes that are not unbalanced. -/
theorem C68_same_model_iff {solve : Solver} (hs : IsOptimalSolver solve) {ts ds : List MotObj}
    (hT : (ts.map TrackOps.uuid).Nodup) (hD : (ds.map TrackOps.uuid).Nodup)
    (hbig : ts.length * ds.length < 2 ^ 64) {metric : MotObj → MotObj → Option FP}
    (hm : IsLibraryMetric metric) {gate : FP → Bool}
    (hg : ∀ t ∈ ts, ∀ d ∈ ds, ∀ s, metric t d = some s →
      gate s = false ∧ ∃ q : ℚ, s = .fin q ∧ 0 ≤ q ∧ q ≤ 10 ^ 31)
    {a : AssociationMap} (h : associateStep solve metric gate ts ds = .ok a) :
    (∀ p ∈ associatedPairs a ts ds, p.1.isLeft = p.2.isLeft) ↔ ¬ Unbalanced ts ds := by
  constructor
  · intro hall hu
    obtain ⟨⟨p, hp, hne⟩, -⟩ := C68_unbalanced_is_ub hs.perm hT hD hbig hm
      (fun t ht d hd s hs => (hg t ht d hd s hs).1) hu h
    exact hne (hall p hp)
  · intro hu
    exact (C68_not_unbalanced_partial hs hT hD hbig hm hg hu h).1

/-! ## C69 -/

/-- C69: a completed cycle fuses the detection into each associated track, leaves the
other tracks' estimates alone, counts exactly the associated tracks up, and removes and
promotes by the thresholds. -/
theorem C69_cycle {n : ℕ} {m : Manager MotObj} (hr : ReachableIn _ _ n m) (hn : n + 3 < 2 ^ 64)
    {solve : Solver} (hs : IsPermSolver solve) {metric : MotObj → MotObj → Option FP}
    {gate : FP → Bool} {ds : List MotObj} (hD : (ds.map TrackOps.uuid).Nodup)
    (hbig : m.getAllTracks.length * ds.length < 2 ^ 64) {a : AssociationMap}
    (ha : associateStep solve metric gate m.getAllTracks ds = .ok a)
    (hf : (fuseAssociations a m.getAllTracks ds ciVisitor).IsOk) :
    (cycle solve metric gate ciVisitor ds m).2 = .ok a ∧
    let m' := (cycle solve metric gate ciVisitor ds m).1
    (∀ u ∈ a.keys, ∃ t, m.HasTrack u t ∧ ∃ y ∈ ds, a.find? u = some [TrackOps.uuid y] ∧
      ∃ f, ciVisitor t y = .ok f ∧ ∀ t', m'.HasTrack u t' ↔
        t' = f ∧ m.removal.toNat < min (m.counter u + 1) m.promo.toNat) ∧
    (∀ u, u ∉ a.keys → ∀ t', m'.HasTrack u t' ↔
      m.HasTrack u t' ∧ m.removal.toNat < m.counter u - 1) ∧
    (∀ u, m'.Managed u → m'.counter u =
      if u ∈ a.keys then min (m.counter u + 1) m.promo.toNat else m.counter u - 1) ∧
    (∀ u, m'.Confirmed u ↔ m'.Managed u ∧ (m.Confirmed u ∨ m.promo.toNat ≤ m'.counter u)) ∧
    m'.promo.toNat = m.promo.toNat ∧ m'.removal.toNat = m.removal.toNat := by
  obtain ⟨ho, h1, h2⟩ := cycleOn_observed hr hn hs ciVisitor_same (Spec.SameObject.refl_list _) hD hbig
    ha hf
  refine ⟨ho, fun u hu => ?_, h2⟩
  obtain ⟨t, x, hx, ht, -, hxu, y, hy, hl, f, hv, hT⟩ := h1 u hu
  obtain rfl := HasTrack.unique hr (by omega) ht ⟨hx, hxu⟩
  exact ⟨t, ht, y, hy, hl, f, hv, hT⟩

/-- C69: no cycle throws, whatever the detections, metric and gate; a cycle that does not
complete has undefined behaviour in the association or in the fusion. -/
theorem C69_never_throws {n : ℕ} {m : Manager MotObj} (hr : ReachableIn _ _ n m)
    (hn : n + 3 < 2 ^ 64) {solve : Solver} (hs : IsPermSolver solve)
    (metric : MotObj → MotObj → Option FP) (gate : FP → Bool) {ds : List MotObj}
    (hD : (ds.map TrackOps.uuid).Nodup) (hbig : m.getAllTracks.length * ds.length < 2 ^ 64) :
    (cycle solve metric gate ciVisitor ds m).2.IsOk ∨
    ((cycle solve metric gate ciVisitor ds m).2.IsUb ∧
      ((associateStep solve metric gate m.getAllTracks ds).IsUb ∨
        ∃ a, associateStep solve metric gate m.getAllTracks ds = .ok a ∧
          (fuseAssociations a m.getAllTracks ds ciVisitor).IsUb)) := by
  exact cycleOn_not_throw hr hn hs ciVisitor_same ciVisitor_not_throw (Spec.SameObject.refl_list _) hD hbig

/-- C69: the manager after a cycle is again reachable, so all properties of reachable
managers hold after any number of cycles. -/
theorem C69_reachable {n : ℕ} {m : Manager MotObj} (hr : ReachableIn _ _ n m) (solve : Solver)
    (metric : MotObj → MotObj → Option FP) (gate : FP → Bool)
    (visitor : MotObj → MotObj → Outcome MotObj) (ds : List MotObj) :
    ReachableIn _ _ (n + 1) (cycle solve metric gate visitor ds m).1 ∨
      ReachableIn _ _ n (cycle solve metric gate visitor ds m).1 := by
  exact cycleOn_reachable hr solve metric gate visitor m.getAllTracks ds

/-! ## C73 -/

/-- C73: after a completed cycle, starting a tentative track for each detection without
association succeeds if the detections' UUIDs are new.  Every detection is then either
fused into exactly one track, or the estimate of its own tentative track with count 1;
no other track is touched. -/
theorem C73_every_detection_once {n : ℕ} {m : Manager MotObj} (hr : ReachableIn _ _ n m)
    (hn : n + 3 < 2 ^ 64) {solve : Solver} (hs : IsPermSolver solve)
    {metric : MotObj → MotObj → Option FP} {gate : FP → Bool} {ds : List MotObj}
    (hD : (ds.map TrackOps.uuid).Nodup) (hbig : m.getAllTracks.length * ds.length < 2 ^ 64)
    {a : AssociationMap} (ha : associateStep solve metric gate m.getAllTracks ds = .ok a)
    (hf : (fuseAssociations a m.getAllTracks ds ciVisitor).IsOk)
    (hnew : ∀ d ∈ ds, ¬ m.Managed (TrackOps.uuid d)) :
    let m' := (cycle solve metric gate ciVisitor ds m).1
    let m'' := (addUnassociated makeTrack2 a ds m').1
    (addUnassociated makeTrack2 a ds m').2 = .ok () ∧
    (∀ d ∈ ds,
      ((∃! u, a.find? u = some [TrackOps.uuid d]) ∧ ¬ m''.Managed (TrackOps.uuid d)) ∨
      ((∀ u l, a.find? u = some l → TrackOps.uuid d ∉ l) ∧
        m''.Tentative (TrackOps.uuid d) ∧ m''.counter (TrackOps.uuid d) = 1 ∧
        ∀ t, m''.HasTrack (TrackOps.uuid d) t ↔ t = makeTrack2 d)) ∧
    (∀ u, (∀ d ∈ ds, TrackOps.uuid d ≠ u) → (∀ t, m''.HasTrack u t ↔ m'.HasTrack u t) ∧
      m''.counter u = m'.counter u ∧ (m''.Confirmed u ↔ m'.Confirmed u)) := by
  intro m' m''
  obtain ⟨fused, hfu⟩ : ∃ fused, fuseAssociations a m.getAllTracks ds ciVisitor = .ok fused := by
    rcases hx : fuseAssociations a m.getAllTracks ds ciVisitor with o | _ | _
    · exact ⟨o, rfl⟩
    · rw [hx] at hf; simp at hf
    · rw [hx] at hf; simp at hf
  have hbig' : (pruneScoresIf (scoreTracksAndDetections m.getAllTracks ds metric) gate).entries.length
      < 2 ^ 64 :=
    lt_of_le_of_lt ((prune_length_le _ _).trans (score_length_le _ _ _)) hbig
  obtain ⟨hsing, hinj, -, -⟩ := C19_one_to_one hs hbig' ha
  obtain ⟨T, h⟩ := reachable_rel hr (by omega)
  obtain ⟨T', h', -, -, -, hnot, hin⟩ := cycle_rel (by omega) h hs hD hbig ha hfu
  have hnone : ∀ d ∈ ds, T'.entry (TrackOps.uuid d) = none := by
    intro d hd
    have h1 : T.entry (TrackOps.uuid d) = none := by
      by_contra hne
      obtain ⟨e, he⟩ := Option.ne_none_iff_exists'.1 hne
      exact hnew d hd (h.managed.2 ⟨e, he⟩)
    by_cases hu : TrackOps.uuid d ∈ a.keys
    · obtain ⟨e, -, -, -, he, -⟩ := hin _ hu
      rw [h1] at he; cases he
    · rw [hnot _ hu, h1]; rfl
  have hmk : ∀ d : MotObj, TrackOps.uuid (makeTrack2 d) = TrackOps.uuid d := by
    intro d; cases d <;> rfl
  obtain ⟨T₂, r1, r2, -, -, r5, r6⟩ := rel_addAll
    (ds.filter fun d => !(HasAssociation.new a).detection d) makeTrack2 hmk h'
    (hD.sublist (List.filter_sublist.map _)) (fun d hd => hnone d (List.mem_filter.1 hd).1)
  change Rel (n + 1) m'' T₂ at r1
  refine ⟨r2, ?_, ?_⟩
  · intro d hd
    by_cases hass : (HasAssociation.new a).detection d = true
    · left
      obtain ⟨u, l, hl, hmem⟩ := (C25_has_association a d d).2.1 hass
      obtain ⟨d', rfl⟩ := hsing u l hl
      rw [List.mem_singleton] at hmem
      subst hmem
      refine ⟨⟨u, hl, fun u' hu' => hinj u' u _ hu' hl⟩, ?_⟩
      rw [r1.managed, r6, hnone d hd]
      · simp
      · intro g hg he
        obtain ⟨hg, hg'⟩ := List.mem_filter.1 hg
        have := eq_of_uuid hD hg hd he
        subst this
        simp [hass] at hg'
    · right
      have he := r5 d (List.mem_filter.2 ⟨hd, by simpa using hass⟩)
      refine ⟨?_, r1.tentative.2 ⟨_, he, rfl⟩, r1.counter_some (by omega) he, fun t => ?_⟩
      · intro u l hl hmem
        exact hass ((C25_has_association a d d).2.2 ⟨u, l, hl, hmem⟩)
      · rw [r1.hasTrack, he]
        simp only [Option.some.injEq, exists_eq_left']
        exact eq_comm
  · intro u hu
    have he : T₂.entry u = T'.entry u := r6 u fun d hd => hu d (List.mem_filter.1 hd).1
    refine ⟨fun t => ?_, ?_, ?_⟩
    · rw [r1.hasTrack, h'.hasTrack, he]
    · rcases hx : T'.entry u with _ | e
      · rw [r1.counter_none (he.trans hx), h'.counter_none hx]
      · rw [r1.counter_some (by omega) (he.trans hx), h'.counter_some (by omega) hx]
    · rw [r1.confirmed, h'.confirmed, he]

/-! ## Concrete scenes -/

/-- a CTRV object with unit covariance -/
noncomputable def motCtrv (u : Fin 256) : MotObj := .inl (sampleObj ⟨[u]⟩ u.1 0 1)

/-- a CTRA object with unit covariance -/
noncomputable def motCtra (u : Fin 256) : MotObj :=
  .inr ⟨7, ⟨u.1, 2, 3, Angle.ofRad 0, 1, 0⟩, (1 : CtraCov), ⟨[u]⟩, .unknown⟩

theorem sample_posDef (u : Fin 256) : CovPosDef (motCtrv u) ∧ CovPosDef (motCtra u) :=
  ⟨Matrix.PosDef.one, Matrix.PosDef.one⟩

/-- a metric for the examples -/
def unitMetric : MotObj → MotObj → Option FP :=
  euclideanScore (fun _ _ => .fin 1) (fun _ _ => .fin 2)

theorem unitMetric_library : IsLibraryMetric unitMetric := .inl ⟨_, _, rfl⟩

theorem unitMetric_range {t d : MotObj} {s : FP} (h : unitMetric t d = some s) :
    ∃ q : ℚ, s = .fin q ∧ 0 < q ∧ q ≤ 10 ^ 31 := by
  match t, d with
  | .inl _, .inl _ => cases h; exact ⟨1, rfl, by norm_num, by norm_num⟩
  | .inr _, .inr _ => cases h; exact ⟨2, rfl, by norm_num, by norm_num⟩
  | .inl _, .inr _ => cases h
  | .inr _, .inl _ => cases h

/-- the association step succeeds with the example metric whenever some pair has one
motion model -/
theorem unitMetric_associates {solve : Solver} (hs : IsPermSolver solve) {ts ds : List MotObj}
    (hbig : ts.length * ds.length < 2 ^ 64)
    (hT : (ts.map TrackOps.uuid).Nodup) (hD : (ds.map TrackOps.uuid).Nodup)
    (h : ∃ t ∈ ts, ∃ d ∈ ds, t.isLeft = d.isLeft) :
    ∃ a, associateStep solve unitMetric (fun _ => false) ts ds = .ok a := by
  have hpr : ∀ k s, (pruneScoresIf (scoreTracksAndDetections ts ds unitMetric) fun _ => false).find? k
      = some s → ∃ q, s = .fin q ∧ 0 < q ∧ q ≤ 10 ^ 31 := by
    intro k s hk
    have h1 := ((C18_prune_iff _ _ _ s).1 hk).1
    obtain ⟨t, ht, d, hd, e1, e2, -⟩ := (C16_entry_iff ts ds unitMetric (ofLex k).1 (ofLex k).2).1
      (Option.isSome_iff_exists.2 ⟨s, h1⟩)
    have h2 := C16_value_of_distinct ts ds unitMetric hT hD ht hd
    rw [e1, e2] at h2
    exact unitMetric_range (h2.symm.trans h1)
  refine C23_returns_partial hs _
    (lt_of_le_of_lt ((prune_length_le _ _).trans (score_length_le _ _ _)) hbig) ?_ (.inl ?_)
  · intro k s hk
    obtain ⟨q, h1, h2, h3⟩ := hpr k s hk
    exact ⟨q, h1, h2.le, h3.trans e31_le'⟩
  · obtain ⟨t, ht, d, hd, he⟩ := h
    have := (scored_iff_model unitMetric_library (gate := fun _ => false) hT hD
      (fun _ _ _ _ _ _ => rfl) ht hd).2 he
    obtain ⟨s, hk⟩ := Option.isSome_iff_exists.1 this
    obtain ⟨q, rfl, h2, -⟩ := hpr _ s hk
    exact ⟨_, q, hk, h2⟩

/-- C68 is false, concretely: with two CTRV tracks, one CTRA track, one CTRV detection and
two CTRA detections, every permutation-returning solver makes the fusion undefined
behaviour. -/
theorem C68_false {solve : Solver} (hs : IsPermSolver solve) :
    ∃ a, associateStep solve unitMetric (fun _ => false) [motCtrv 1, motCtrv 2, motCtra 3]
      [motCtrv 7, motCtra 8, motCtra 9] = .ok a ∧
    (fuseAssociations a [motCtrv 1, motCtrv 2, motCtra 3]
      [motCtrv 7, motCtra 8, motCtra 9] ciVisitor).IsUb := by
  have hT : ([motCtrv 1, motCtrv 2, motCtra 3].map TrackOps.uuid).Nodup := by
    show [(⟨[1]⟩ : Uuid), ⟨[2]⟩, ⟨[3]⟩].Nodup
    decide +kernel
  have hD : ([motCtrv 7, motCtra 8, motCtra 9].map TrackOps.uuid).Nodup := by
    show [(⟨[7]⟩ : Uuid), ⟨[8]⟩, ⟨[9]⟩].Nodup
    decide +kernel
  obtain ⟨a, ha⟩ := unitMetric_associates hs (ts := [motCtrv 1, motCtrv 2, motCtra 3])
    (ds := [motCtrv 7, motCtra 8, motCtra 9]) (by simp) hT hD
    ⟨motCtrv 1, by simp, motCtrv 7, by simp, rfl⟩
  refine ⟨a, ha, (C68_unbalanced_is_ub hs hT hD (by simp) unitMetric_library
    (fun _ _ _ _ _ _ => rfl) ?_ ha).2⟩
  refine ⟨?_, ?_, ?_, ?_, .inl ⟨?_, ?_⟩⟩ <;> decide +kernel

/-- the hypotheses of `C68_not_unbalanced_partial` hold in a mixed scene -/
example {solve : Solver} (hs : IsOptimalSolver solve) :
    ∃ a, associateStep solve unitMetric (fun _ => false) [motCtrv 1, motCtra 2]
      [motCtra 7, motCtrv 8, motCtrv 9] = .ok a ∧
    (fuseAssociations a [motCtrv 1, motCtra 2]
      [motCtra 7, motCtrv 8, motCtrv 9] ciVisitor).IsOk := by
  have hT : ([motCtrv 1, motCtra 2].map TrackOps.uuid).Nodup := by
    show [(⟨[1]⟩ : Uuid), ⟨[2]⟩].Nodup
    decide +kernel
  have hD : ([motCtra 7, motCtrv 8, motCtrv 9].map TrackOps.uuid).Nodup := by
    show [(⟨[7]⟩ : Uuid), ⟨[8]⟩, ⟨[9]⟩].Nodup
    decide +kernel
  obtain ⟨a, ha⟩ := unitMetric_associates hs.perm (ts := [motCtrv 1, motCtra 2])
    (ds := [motCtra 7, motCtrv 8, motCtrv 9]) (by simp) hT hD
    ⟨motCtrv 1, by simp, motCtrv 8, by simp, rfl⟩
  refine ⟨a, ha, (C68_not_unbalanced_partial hs hT hD (by simp) unitMetric_library
    (fun _ _ _ _ s h => ⟨rfl, ?_⟩) (?_) ha).2 ?_⟩
  · obtain ⟨q, h1, h2, h3⟩ := unitMetric_range h
    exact ⟨q, h1, h2.le, h3⟩
  · unfold Unbalanced; decide +kernel
  · intro o ho
    simp only [List.cons_append, List.nil_append, List.mem_cons, List.not_mem_nil, or_false] at ho
    rcases ho with rfl | rfl | rfl | rfl | rfl
    · exact (sample_posDef _).1
    · exact (sample_posDef _).2
    · exact (sample_posDef _).2
    · exact (sample_posDef _).1
    · exact (sample_posDef _).1

/-- a manager with one track; the cycle with two new detections completes (hypotheses of
C69 and C73) -/
theorem sample_scene {solve : Solver} (hs : IsOptimalSolver solve) :
    let m := (addTentativeTrack (motCtrv 1) (Manager.new 3 0)).1
    ∃ a, ReachableIn _ _ 0 m ∧
      associateStep solve unitMetric (fun _ => false) m.getAllTracks [motCtrv 7, motCtra 8]
        = .ok a ∧
      (fuseAssociations a m.getAllTracks [motCtrv 7, motCtra 8] ciVisitor).IsOk ∧
      a.keys ≠ [] ∧ ∀ d ∈ [motCtrv 7, motCtra 8], ¬ m.Managed (TrackOps.uuid d) := by
  intro m
  have hm : m.getAllTracks = [motCtrv 1] := rfl
  have hreach : ReachableIn _ _ 0 (Manager.new 3 0 : Manager MotObj) :=
    ⟨3, 0, [], [], .nil (Reordered.refl _), rfl⟩
  have hT : (([motCtrv 1] : List MotObj).map TrackOps.uuid).Nodup := by simp
  have hD : ([motCtrv 7, motCtra 8].map TrackOps.uuid).Nodup := by
    show [(⟨[7]⟩ : Uuid), ⟨[8]⟩].Nodup
    decide +kernel
  obtain ⟨a, ha⟩ := unitMetric_associates hs.perm (ts := [motCtrv 1])
    (ds := [motCtrv 7, motCtra 8]) (by simp) hT hD
    ⟨motCtrv 1, by simp, motCtrv 7, by simp, rfl⟩
  rw [hm]
  refine ⟨a, reachable_step hreach (.add (motCtrv 1)), ha,
    (C68_not_unbalanced_partial hs hT hD (by simp) unitMetric_library
    (fun _ _ _ _ s h => ⟨rfl, ?_⟩) (?_) ha).2 ?_, ?_, ?_⟩
  · obtain ⟨q, h1, h2, h3⟩ := unitMetric_range h
    exact ⟨q, h1, h2.le, h3⟩
  · unfold Unbalanced; decide +kernel
  · intro o ho
    simp only [List.cons_append, List.nil_append, List.mem_cons, List.not_mem_nil, or_false] at ho
    rcases ho with rfl | rfl | rfl
    · exact (sample_posDef _).1
    · exact (sample_posDef _).1
    · exact (sample_posDef _).2
  · have := (C20_card hs.perm (by
      exact lt_of_le_of_lt ((prune_length_le _ _).trans (score_length_le _ _ _)) (by simp)) ha).2
    intro h0
    rw [h0] at this
    have hsc := (scored_iff_model unitMetric_library (gate := fun _ => false) hT hD
      (fun _ _ _ _ _ _ => rfl) (t := motCtrv 1) (d := motCtrv 7) (by simp) (by simp)).2 rfl
    have h1 : 0 < trackCount (pruneScoresIf (scoreTracksAndDetections [motCtrv 1]
        [motCtrv 7, motCtra 8] unitMetric) fun _ => false) :=
      Finset.card_pos.2 ⟨_, mem_trackNames.2 ⟨_, hsc⟩⟩
    have h2 : 0 < detectionCount (pruneScoresIf (scoreTracksAndDetections [motCtrv 1]
        [motCtrv 7, motCtra 8] unitMetric) fun _ => false) :=
      Finset.card_pos.2 ⟨_, mem_detectionNames.2 ⟨_, hsc⟩⟩
    simp only [List.length_nil] at this
    omega
  · rintro d hd ⟨t, ht, hu⟩
    rw [hm, List.mem_singleton] at ht
    subst ht
    simp only [List.mem_cons, List.not_mem_nil, or_false] at hd
    rcases hd with rfl | rfl
    · exact absurd hu (show (⟨[1]⟩ : Uuid) ≠ ⟨[7]⟩ by decide +kernel)
    · exact absurd hu (show (⟨[1]⟩ : Uuid) ≠ ⟨[8]⟩ by decide +kernel)

end Mot.Props
