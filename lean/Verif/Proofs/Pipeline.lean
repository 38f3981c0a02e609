import Verif.Model.Pipeline
import Verif.Spec.Pipeline
import Verif.Props.Fusing
import Verif.Props.Matching
import Verif.Props.Scoring
import Verif.Props.TrackManagement
/-!
# Helper lemmas for the tracking cycle
-/

namespace Mot

open Manager Spec

section
variable {τ δ S C S' C' : Type} [TrackOps τ S C] [TrackOps δ S' C']

theorem mem_associatedPairs (a : AssociationMap) (ts : List τ) (ds : List δ) (t : τ) (d : δ) :
    (t, d) ∈ associatedPairs a ts ds ↔ t ∈ ts ∧ d ∈ ds ∧
      ∃ us, a.find? (TrackOps.uuid t) = some us ∧ TrackOps.uuid d ∈ us := by
  rw [Props.associatedPairs_eq]
  simp only [List.mem_flatMap, List.mem_filter, List.mem_map, Prod.mk.injEq, decide_eq_true_eq]
  constructor
  · rintro ⟨⟨u, us⟩, he, t', ⟨ht, hu⟩, d', ⟨hd, hu'⟩, rfl, rfl⟩
    simp only at hu hu'
    exact ⟨ht, hd, us, SMap.find?_eq_some.2 (hu ▸ he), hu'⟩
  · rintro ⟨ht, hd, us, he, hu⟩
    exact ⟨(_, us), SMap.find?_eq_some.1 he, t, ⟨ht, rfl⟩, d, ⟨hd, hu⟩, rfl, rfl⟩

/-- a successful fusion fuses every associated pair -/
theorem fuse_pair {a : AssociationMap} {ts : List τ} {ds : List δ} {f : τ → δ → Outcome τ}
    {out : List τ} (h : fuseAssociations a ts ds f = .ok out) {t : τ} {d : δ}
    (hp : (t, d) ∈ associatedPairs a ts ds) : ∃ x ∈ out, f t d = .ok x := by
  have h' := (Props.C29_exactly_the_pairs a ts ds f out).1 h
  obtain ⟨i, hi, he⟩ := List.mem_iff_getElem.1 hp
  have := (List.forall₂_iff_get.1 h').2 i hi (h'.length_eq ▸ hi)
  rw [List.get_eq_getElem, he] at this
  exact ⟨_, List.getElem_mem _, this⟩

/-- the pairs are those of the association map -/
theorem mem_pairsOf_iff {a : AssociationMap} {t d : Uuid} :
    (t, d) ∈ pairsOf a ↔ ∃ us, a.find? t = some us ∧ d ∈ us := by
  unfold pairsOf
  simp only [List.mem_flatMap, List.mem_map, Prod.mk.injEq]
  constructor
  · rintro ⟨⟨u, us⟩, he, d', hd, rfl, rfl⟩
    exact ⟨us, SMap.find?_eq_some.2 he, hd⟩
  · rintro ⟨us, he, hd⟩
    exact ⟨(t, us), SMap.find?_eq_some.1 he, d, hd, rfl, rfl⟩

end

section
variable {S₁ C₁ S₂ C₂ : Type}

theorem copyEstimate_same {t f : Obj2 S₁ C₁ S₂ C₂} (hl : t.isLeft = f.isLeft)
    (hu : TrackOps.uuid t = TrackOps.uuid f)
    (hc : TrackOps.semanticClass t = TrackOps.semanticClass f) :
    Table.copyEstimate f t = (f, .ok ()) := by
  match t, f with
  | .inl ⟨_, _, _, _, _⟩, .inl ⟨_, _, _, _, _⟩ => cases hu; cases hc; rfl
  | .inr ⟨_, _, _, _, _⟩, .inr ⟨_, _, _, _, _⟩ => cases hu; cases hc; rfl
  | .inl _, .inr _ => cases hl
  | .inr _, .inl _ => cases hl

/-- storing the fused tracks -/
theorem rel_storeFused {n : ℕ} (hn : n + 2 < 2 ^ 64) (fs : List (Obj2 S₁ C₁ S₂ C₂))
    {m : Manager (Obj2 S₁ C₁ S₂ C₂)} {T : Table (Obj2 S₁ C₁ S₂ C₂)} (h : Rel n m T) (hnd : (fs.map TrackOps.uuid).Nodup)
    (hm : ∀ f ∈ fs, ∃ e, T.entry (TrackOps.uuid f) = some e ∧ e.track.isLeft = f.isLeft ∧
      TrackOps.semanticClass e.track = TrackOps.semanticClass f) :
    ∃ T', Rel n (storeFused fs m).1 T' ∧ (storeFused fs m).2 = .ok () ∧ T'.promo = T.promo ∧
      T'.removal = T.removal ∧
      (∀ f ∈ fs, T'.entry (TrackOps.uuid f) =
        (T.entry (TrackOps.uuid f)).map fun e => { e with track := f }) ∧
      ∀ u, (∀ f ∈ fs, TrackOps.uuid f ≠ u) → T'.entry u = T.entry u := by
  induction fs generalizing m T with
  | nil => exact ⟨T, h, rfl, rfl, rfl, by simp, fun _ _ => rfl⟩
  | cons f fs ih =>
    rw [List.map_cons, List.nodup_cons] at hnd
    obtain ⟨e, he, hl, hc⟩ := hm f (by simp)
    have hs : (T.step (.updateTrackFrom (TrackOps.uuid f) f)) =
        ({ T with entry := fun v => if v = TrackOps.uuid f then some { e with track := f }
          else T.entry v }, .ok ()) := by
      show T.modifyTrack _ _ = _
      unfold Table.modifyTrack
      simp only [he, copyEstimate_same hl (h.uuid _ _ he) hc]
    obtain ⟨h1, h2⟩ := rel_step h hn (.updateTrackFrom (TrackOps.uuid f) f)
    rw [hs] at h1 h2
    have hne : ∀ g ∈ fs, TrackOps.uuid g ≠ TrackOps.uuid f := fun g hg hgf =>
      hnd.1 (hgf ▸ List.mem_map.2 ⟨g, hg, rfl⟩)
    obtain ⟨T', h3, h4, h5, h6, h7, h8⟩ := ih h1 hnd.2 (fun g hg => by
      obtain ⟨e', he', h'⟩ := hm g (by simp [hg])
      exact ⟨e', by simp only [if_neg (hne g hg), he'], h'⟩)
    have hstep : storeFused (f :: fs) m = storeFused fs (Manager.step (.updateTrackFrom (TrackOps.uuid f) f) m).1 := by
      unfold storeFused
      rw [Act.forEach]
      have hst : Manager.step (.updateTrackFrom (TrackOps.uuid f) f) m =
          Manager.updateTrackFrom (TrackOps.uuid f) f m := rfl
      rw [hst] at h2 ⊢
      rcases hx : Manager.updateTrackFrom (TrackOps.uuid f) f m with ⟨s', o⟩
      rw [hx] at h2
      simp only at h2
      subst h2
      rfl
    rw [hstep]
    refine ⟨T', h3, h4, h5, h6, ?_, ?_⟩
    · intro g hg
      rcases List.mem_cons.1 hg with rfl | hg
      · rw [h8 _ (fun g' hg' => hne g' hg'), he]
        simp only [if_pos, Option.map_some]
      · rw [h7 g hg]
        simp only [if_neg (hne g hg)]
    · intro u hu
      rw [h8 u (fun g hg => hu g (by simp [hg]))]
      simp only [if_neg (Ne.symm (hu f (by simp)))]

end

theorem ciVisitor_not_throw (t d : MotObj) (e : Exc) : ciVisitor t d ≠ .throw e := by
  have key : ∀ {S : Type} {n : ℕ} [MotionModel S n] (t d : DynObj S (Matrix (Fin n) (Fin n) ℝ)),
      fusePair t d ≠ .throw e := by
    intro S n _ t d
    unfold fusePair
    split
    · split
      · simp
      · split <;> simp
    · simp
  match t, d with
  | .inl t, .inl d =>
    intro h
    unfold ciVisitor at h
    simp only at h
    split at h
    · cases h
    · next h' => cases h; exact key t d h'
    · cases h
  | .inr t, .inr d =>
    intro h
    unfold ciVisitor at h
    simp only at h
    split at h
    · cases h
    · next h' => cases h; exact key t d h'
    · cases h
  | .inl _, .inr _ => simp [ciVisitor]
  | .inr _, .inl _ => simp [ciVisitor]

/-- the number of scores is at most the number of pairs -/
theorem score_length_le {τ S C : Type} [TrackOps τ S C] (ts ds : List τ)
    (metric : τ → τ → Option FP) :
    (scoreTracksAndDetections ts ds metric).entries.length ≤ ts.length * ds.length := by
  set sc := scoreTracksAndDetections ts ds metric
  have hsub : (sc.entries.map (·.1)) ⊆ (ts ×ˢ ds).map
      (fun p => mkPair (TrackOps.uuid p.1) (TrackOps.uuid p.2)) := by
    intro k hk
    obtain ⟨⟨k', s⟩, he, rfl⟩ := List.mem_map.1 hk
    have := (Props.C16_entry_iff ts ds metric (ofLex k').1 (ofLex k').2).1
      (by rw [Option.isSome_iff_exists]; exact ⟨s, SMap.find?_eq_some.2 he⟩)
    obtain ⟨t, ht, d, hd, h1, h2, -⟩ := this
    refine List.mem_map.2 ⟨(t, d), List.mem_product.2 ⟨ht, hd⟩, ?_⟩
    simp only [h1, h2]
    rfl
  have hnd : (sc.entries.map (·.1)).Nodup := sc.nodup_keys
  have := (hnd.subperm hsub).length_le
  rw [List.length_map, List.length_map, List.length_product] at this
  exact this

theorem prune_length_le (scores : ScoreMap) (gate : FP → Bool) :
    (pruneScoresIf scores gate).entries.length ≤ scores.entries.length := by
  have hsub : (pruneScoresIf scores gate).entries ⊆ scores.entries := by
    rintro ⟨k, s⟩ he
    exact SMap.find?_eq_some.1
      ((Props.C18_prune_iff scores gate k s).1 (SMap.find?_eq_some.2 he)).1
  have hnd : (pruneScoresIf scores gate).entries.Nodup :=
    List.Nodup.of_map (·.1) (pruneScoresIf scores gate).nodup_keys
  exact (hnd.subperm hsub).length_le

/-- the tracks and detections of the gated score map are tracks and detections given -/
theorem scored_present {τ S C : Type} [TrackOps τ S C] {ts ds : List τ}
    {metric : τ → τ → Option FP} {gate : FP → Bool} {t d : Uuid}
    (h : Scored (pruneScoresIf (scoreTracksAndDetections ts ds metric) gate) t d) :
    ∃ x ∈ ts, ∃ y ∈ ds, TrackOps.uuid x = t ∧ TrackOps.uuid y = d ∧ (metric x y).isSome := by
  obtain ⟨s, hs⟩ := Option.isSome_iff_exists.1 h
  have := ((Props.C18_prune_iff _ gate _ s).1 hs).1
  exact (Props.C16_entry_iff ts ds metric t d).1 (Option.isSome_iff_exists.2 ⟨s, this⟩)

/-- objects with distinct UUIDs are determined by them -/
theorem eq_of_uuid {τ S C : Type} [TrackOps τ S C] {l : List τ}
    (h : (l.map TrackOps.uuid).Nodup) {x y : τ} (hx : x ∈ l) (hy : y ∈ l)
    (he : TrackOps.uuid x = TrackOps.uuid y) : x = y :=
  List.inj_on_of_nodup_map h hx hy he

section
variable {S₁ C₁ S₂ C₂ : Type}

theorem Spec.SameObject.uuids {l l' : List (Obj2 S₁ C₁ S₂ C₂)} (h : List.Forall₂ SameObject l l') :
    l'.map TrackOps.uuid = l.map TrackOps.uuid := by
  induction h with
  | nil => rfl
  | cons h _ ih => simp only [List.map_cons, ih, h.uuid]

theorem Spec.SameObject.find {l l' : List (Obj2 S₁ C₁ S₂ C₂)} (h : List.Forall₂ SameObject l l') :
    (∀ x' ∈ l', ∃ x ∈ l, SameObject x x') ∧ ∀ x ∈ l, ∃ x' ∈ l', SameObject x x' := by
  induction h with
  | nil => simp
  | cons h _ ih =>
    refine ⟨fun x' hx => ?_, fun x hx => ?_⟩
    · rcases List.mem_cons.1 hx with rfl | hx
      · exact ⟨_, List.mem_cons_self, h⟩
      · obtain ⟨x, hx, h'⟩ := ih.1 x' hx
        exact ⟨x, List.mem_cons_of_mem _ hx, h'⟩
    · rcases List.mem_cons.1 hx with rfl | hx
      · exact ⟨_, List.mem_cons_self, h⟩
      · obtain ⟨x, hx, h'⟩ := ih.2 x hx
        exact ⟨x, List.mem_cons_of_mem _ hx, h'⟩

theorem Spec.SameObject.refl (o : Obj2 S₁ C₁ S₂ C₂) : SameObject o o := ⟨rfl, rfl, rfl⟩

theorem Spec.SameObject.symm {o o' : Obj2 S₁ C₁ S₂ C₂} (h : SameObject o o') : SameObject o' o :=
  ⟨h.uuid.symm, h.semanticClass.symm, h.model.symm⟩

theorem Spec.SameObject.trans {o o' o'' : Obj2 S₁ C₁ S₂ C₂} (h : SameObject o o')
    (h' : SameObject o' o'') : SameObject o o'' :=
  ⟨h'.uuid.trans h.uuid, h'.semanticClass.trans h.semanticClass, h'.model.trans h.model⟩

theorem Spec.SameObject.refl_list (l : List (Obj2 S₁ C₁ S₂ C₂)) : List.Forall₂ SameObject l l :=
  List.forall₂_same.2 fun x _ => SameObject.refl x

/-- what a completed cycle does to the table of tracks -/
theorem cycleOn_rel {n : ℕ} (hn : n + 2 < 2 ^ 64) {m : Manager (Obj2 S₁ C₁ S₂ C₂)}
    {T : Table (Obj2 S₁ C₁ S₂ C₂)} (h : Rel n m T) {solve : Solver} (hs : IsPermSolver solve)
    {metric : Obj2 S₁ C₁ S₂ C₂ → Obj2 S₁ C₁ S₂ C₂ → Option FP} {gate : FP → Bool}
    {visitor : Obj2 S₁ C₁ S₂ C₂ → Obj2 S₁ C₁ S₂ C₂ → Outcome (Obj2 S₁ C₁ S₂ C₂)}
    (hv : ∀ t d f, visitor t d = .ok f → SameObject t f) {ts ds : List (Obj2 S₁ C₁ S₂ C₂)}
    (hts : List.Forall₂ SameObject m.getAllTracks ts)
    (hds : (ds.map TrackOps.uuid).Nodup) (hbig : ts.length * ds.length < 2 ^ 64)
    {a : AssociationMap} (ha : associateStep solve metric gate ts ds = .ok a)
    {fused : List (Obj2 S₁ C₁ S₂ C₂)} (hf : fuseAssociations a ts ds visitor = .ok fused) :
    ∃ T', Rel (n + 1) (cycleOn solve metric gate visitor ts ds m).1 T' ∧
      (cycleOn solve metric gate visitor ts ds m).2 = .ok a ∧
      T'.promo = T.promo ∧ T'.removal = T.removal ∧
      (∀ u, u ∉ a.keys →
        T'.entry u = (T.entry u).bind (Table.updateEntry T.promo T.removal false)) ∧
      (∀ u, u ∈ a.keys → ∃ e, ∃ t ∈ ts, ∃ y ∈ ds, ∃ f, T.entry u = some e ∧
        SameObject e.track t ∧ TrackOps.uuid t = u ∧
        a.find? u = some [TrackOps.uuid y] ∧ visitor t y = .ok f ∧
        T'.entry u = Table.updateEntry T.promo T.removal true { e with track := f }) := by
  have hbig' : (pruneScoresIf (scoreTracksAndDetections ts ds metric) gate).entries.length
      < 2 ^ 64 :=
    lt_of_le_of_lt ((prune_length_le _ _).trans (score_length_le _ _ _)) hbig
  obtain ⟨hsing, -, -, hpres⟩ := Props.C19_one_to_one hs hbig' ha
  have htn : (ts.map TrackOps.uuid).Nodup := by rw [SameObject.uuids hts]; exact h.nodup
  have hcy : cycleOn solve metric gate visitor ts ds m =
      Act.andThen (storeFused fused) (fun _ =>
        Act.andThen (Manager.updateTrackLists a) fun _ m => (m, .ok a)) m := by
    unfold cycleOn
    rw [ha]; simp only [hf]
  -- every key is a track, with a detection and a fused object
  have hkey : ∀ u ∈ a.keys, ∃ t ∈ ts, ∃ y ∈ ds, ∃ f ∈ fused, TrackOps.uuid t = u ∧
      a.find? u = some [TrackOps.uuid y] ∧ visitor t y = .ok f := by
    intro u hu
    obtain ⟨l, hl⟩ := Option.isSome_iff_exists.1 (SMap.find?_isSome.2 hu)
    obtain ⟨d, rfl⟩ := hsing u l hl
    obtain ⟨⟨d', h1⟩, ⟨t', h2⟩⟩ := hpres (u, d) (mem_pairsOf_iff.2 ⟨_, hl, by simp⟩)
    obtain ⟨t, ht, -, -, hu', -⟩ := scored_present h1
    obtain ⟨-, -, y, hy, -, hd', -⟩ := scored_present h2
    simp only at hu' hd'
    obtain ⟨f, hfm, hfv⟩ := fuse_pair hf ((mem_associatedPairs a _ _ t y).2
      ⟨ht, hy, _, hu' ▸ hl, by simp [hd']⟩)
    exact ⟨t, ht, y, hy, f, hfm, hu', hd' ▸ hl, hfv⟩
  have hof : ∀ f ∈ fused, ∃ t ∈ ts, ∃ y ∈ ds, SameObject t f ∧
      a.find? (TrackOps.uuid t) = some [TrackOps.uuid y] ∧ visitor t y = .ok f := by
    intro f hfm
    obtain ⟨t, ht, y, hy, us, h1, h2, h3⟩ := (Props.C29_mem a _ _ _ _ hf f).1 hfm
    obtain ⟨d, rfl⟩ := hsing _ us h1
    rw [List.mem_singleton] at h2
    exact ⟨t, ht, y, hy, hv t y f h3, h2 ▸ h1, h3⟩
  have hnd : (fused.map TrackOps.uuid).Nodup := by
    rw [Props.C29_one_per_association a _ _ visitor
      (fun t d _ _ x hx => (hv t d x hx).uuid) htn hds
      (fun e he => hsing e.1 e.2 (SMap.find?_eq_some.2 he)) fused hf]
    exact a.nodup_keys.sublist (List.filter_sublist.map _)
  have hentry : ∀ t ∈ ts, ∃ e, T.entry (TrackOps.uuid t) = some e ∧ SameObject e.track t := by
    intro t ht
    obtain ⟨x, hx, hxt⟩ := (SameObject.find hts).1 t ht
    obtain ⟨e, he, rfl⟩ := h.hasTrack.1 ⟨hx, rfl⟩
    exact ⟨e, hxt.uuid ▸ he, hxt⟩
  obtain ⟨T₁, r1, r2, r3, r4, r5, r6⟩ := rel_storeFused hn fused h hnd (by
    intro f hfm
    obtain ⟨t, ht, y, -, hu, -, hv⟩ := hof f hfm
    obtain ⟨e, he, hes⟩ := hentry t ht
    have := hes.trans hu
    exact ⟨e, hu.uuid ▸ he, this.model.symm, this.semanticClass.symm⟩)
  obtain ⟨u1, u2⟩ := rel_update r1 hn a
  have hfin : cycleOn solve metric gate visitor ts ds m =
      ((Manager.updateTrackLists a (storeFused fused m).1).1, .ok a) := by
    rw [hcy]
    unfold Act.andThen
    rcases hx : storeFused fused m with ⟨s, o⟩
    rw [hx] at r2 u2
    simp only at r2 u2
    subst r2
    simp only
    rcases hy : Manager.updateTrackLists a s with ⟨s', o'⟩
    rw [hy] at u2
    simp only at u2
    subst u2
    rfl
  rw [hfin]
  refine ⟨_, u1, rfl, r3, r4, ?_, ?_⟩
  · intro u hu
    show (T₁.entry u).bind _ = _
    rw [r3, r4, r6 u, decide_eq_false hu]
    intro f hfm hfu
    obtain ⟨t, -, y, -, hu', hl, -⟩ := hof f hfm
    apply hu
    rw [← hfu, hu'.uuid, ← SMap.find?_isSome, hl]
    rfl
  · intro u hu
    obtain ⟨t, ht, y, hy, f, hfm, rfl, hl, hvf⟩ := hkey u hu
    obtain ⟨e, he, hes⟩ := hentry t ht
    have hfu := (hv _ y f hvf).uuid
    refine ⟨e, t, ht, y, hy, f, he, hes, rfl, hl, hvf, ?_⟩
    show (T₁.entry _).bind _ = _
    have := r5 f hfm
    rw [hfu] at this
    rw [this, he, r3, r4, decide_eq_true hu]
    rfl

end

/-- what a completed cycle on the manager's own tracks does -/
theorem cycle_rel {n : ℕ} (hn : n + 2 < 2 ^ 64) {m : Manager MotObj} {T : Table MotObj}
    (h : Rel n m T) {solve : Solver} (hs : IsPermSolver solve)
    {metric : MotObj → MotObj → Option FP} {gate : FP → Bool} {ds : List MotObj}
    (hds : (ds.map TrackOps.uuid).Nodup) (hbig : m.getAllTracks.length * ds.length < 2 ^ 64)
    {a : AssociationMap} (ha : associateStep solve metric gate m.getAllTracks ds = .ok a)
    {fused : List MotObj} (hf : fuseAssociations a m.getAllTracks ds ciVisitor = .ok fused) :
    ∃ T', Rel (n + 1) (cycle solve metric gate ciVisitor ds m).1 T' ∧
      (cycle solve metric gate ciVisitor ds m).2 = .ok a ∧
      T'.promo = T.promo ∧ T'.removal = T.removal ∧
      (∀ u, u ∉ a.keys →
        T'.entry u = (T.entry u).bind (Table.updateEntry T.promo T.removal false)) ∧
      (∀ u, u ∈ a.keys → ∃ e, ∃ y ∈ ds, ∃ f, T.entry u = some e ∧
        a.find? u = some [TrackOps.uuid y] ∧ ciVisitor e.track y = .ok f ∧
        T'.entry u = Table.updateEntry T.promo T.removal true { e with track := f }) := by
  obtain ⟨T', h1, h2, h3, h4, h5, h6⟩ := cycleOn_rel hn h hs
    (fun t d f hf => ⟨(Props.C30_identity_and_time t d f hf).1,
      (Props.C30_identity_and_time t d f hf).2.1, (Props.C30_identity_and_time t d f hf).2.2.2.1⟩)
    (SameObject.refl_list _) hds hbig ha hf
  refine ⟨T', h1, h2, h3, h4, h5, fun u hu => ?_⟩
  obtain ⟨e, t, ht, y, hy, f, he, -, htu, hl, hv, hT⟩ := h6 u hu
  obtain ⟨e', he', rfl⟩ := h.hasTrack.1 ⟨ht, htu⟩
  rw [he] at he'
  cases he'
  exact ⟨e, y, hy, f, he, hl, hv, hT⟩

/-! ## Reachability -/

section
variable {τ S C : Type} [TrackOps τ S C]

theorem runs_snoc {m m' : Manager τ} {ops : List (Op τ S C)} {os : List (Outcome Unit)}
    (h : Runs m ops os m') (op : Op τ S C) :
    Runs m (ops ++ [op]) (os ++ [(Manager.step op m').2]) (Manager.step op m').1 := by
  induction h with
  | nil h => exact .cons h (.nil ⟨rfl, rfl, .refl _, .refl _, .refl _⟩)
  | cons h _ ih => exact .cons h ih

omit [TrackOps τ S C] in
theorem numUpdates_append (l l' : List (Op τ S C)) :
    numUpdates (l ++ l') = numUpdates l + numUpdates l' := by
  induction l with
  | nil => simp [numUpdates]
  | cons x l ih => simp only [List.cons_append, numUpdates, ih]; omega

theorem reachable_step {n : ℕ} {m : Manager τ} (h : ReachableIn S C n m) (op : Op τ S C) :
    ReachableIn S C (n + op.updates) (Manager.step op m).1 := by
  obtain ⟨p, r, ops, os, hr, rfl⟩ := h
  exact ⟨p, r, _, _, runs_snoc hr op, by rw [numUpdates_append]; simp [numUpdates]⟩

theorem reachable_forEach {n : ℕ} {α : Type} (f : α → Act (Manager τ) Unit)
    (hf : ∀ x (m : Manager τ), ReachableIn S C n m → ReachableIn S C n (f x m).1) (l : List α)
    {m : Manager τ} (h : ReachableIn S C n m) : ReachableIn S C n (Act.forEach f l m).1 := by
  induction l generalizing m with
  | nil => exact h
  | cons x l ih =>
    rw [Act.forEach]
    have := hf x m h
    rcases hx : f x m with ⟨s, _ | _ | _⟩
    · rw [hx] at this; exact ih this
    · rw [hx] at this; exact this
    · rw [hx] at this; exact this

theorem reachable_storeFused {n : ℕ} (l : List τ) {m : Manager τ} (h : ReachableIn S C n m) :
    ReachableIn S C n (storeFused l m).1 :=
  reachable_forEach _ (fun x _ h => reachable_step h (.updateTrackFrom (TrackOps.uuid x) x)) l h

end

/-! ## Counting by motion model -/

/-- the gated scores of library metrics are the pairs with one motion model -/
theorem scored_iff_model {ts ds : List MotObj} {metric : MotObj → MotObj → Option FP}
    (hm : IsLibraryMetric metric) {gate : FP → Bool}
    (hT : (ts.map TrackOps.uuid).Nodup) (hD : (ds.map TrackOps.uuid).Nodup)
    (hg : ∀ t ∈ ts, ∀ d ∈ ds, ∀ s, metric t d = some s → gate s = false)
    {t d : MotObj} (ht : t ∈ ts) (hd : d ∈ ds) :
    Scored (pruneScoresIf (scoreTracksAndDetections ts ds metric) gate)
      (TrackOps.uuid t) (TrackOps.uuid d) ↔ t.isLeft = d.isLeft := by
  rw [← Props.C17_no_cross_model_entry metric hm ts ds hT hD ht hd]
  unfold Scored
  simp only [Option.isSome_iff_exists]
  refine exists_congr fun s => ?_
  rw [Props.C18_prune_iff]
  refine ⟨fun h => h.1, fun h => ⟨h, ?_⟩⟩
  rw [Props.C16_value_of_distinct ts ds metric hT hD ht hd] at h
  exact hg t ht d hd s h

theorem mem_trackNames {scores : ScoreMap} {u : Uuid} :
    u ∈ (scores.entries.map fun e => (ofLex e.1).1).toFinset ↔ ScoredTrack scores u := by
  rw [List.mem_toFinset, List.mem_map]
  constructor
  · rintro ⟨⟨k, s⟩, he, rfl⟩
    exact ⟨(ofLex k).2, scored_iff_mem.2 ⟨s, he⟩⟩
  · rintro ⟨d, h⟩
    obtain ⟨s, h⟩ := scored_iff_mem.1 h
    exact ⟨_, h, rfl⟩

theorem mem_detectionNames {scores : ScoreMap} {u : Uuid} :
    u ∈ (scores.entries.map fun e => (ofLex e.1).2).toFinset ↔ ScoredDetection scores u := by
  rw [List.mem_toFinset, List.mem_map]
  constructor
  · rintro ⟨⟨k, s⟩, he, rfl⟩
    exact ⟨(ofLex k).1, scored_iff_mem.2 ⟨s, he⟩⟩
  · rintro ⟨d, h⟩
    obtain ⟨s, h⟩ := scored_iff_mem.1 h
    exact ⟨_, h, rfl⟩

section
variable {τ S C : Type} [TrackOps τ S C] {ts ds : List τ} {metric : τ → τ → Option FP}
  {gate : FP → Bool}

theorem trackCount_le (p : τ → Bool) (hp : ∀ t ∈ ts, ∀ d ∈ ds, (metric t d).isSome → p t) :
    trackCount (pruneScoresIf (scoreTracksAndDetections ts ds metric) gate) ≤
      (ts.filter p).length := by
  refine le_trans (Finset.card_le_card (t := ((ts.filter p).map TrackOps.uuid).toFinset) ?_)
    ((List.toFinset_card_le _).trans (by simp))
  intro u hu
  obtain ⟨d, hd⟩ := mem_trackNames.1 hu
  obtain ⟨t, ht, d, hd', rfl, -, hm⟩ := scored_present hd
  exact List.mem_toFinset.2 (List.mem_map.2 ⟨t, List.mem_filter.2 ⟨ht, hp t ht d hd' hm⟩, rfl⟩)

theorem detectionCount_le (p : τ → Bool) (hp : ∀ t ∈ ts, ∀ d ∈ ds, (metric t d).isSome → p d) :
    detectionCount (pruneScoresIf (scoreTracksAndDetections ts ds metric) gate) ≤
      (ds.filter p).length := by
  refine le_trans (Finset.card_le_card (t := ((ds.filter p).map TrackOps.uuid).toFinset) ?_)
    ((List.toFinset_card_le _).trans (by simp))
  intro u hu
  obtain ⟨d, hd⟩ := mem_detectionNames.1 hu
  obtain ⟨t, ht, d, hd', -, rfl, hm⟩ := scored_present hd
  exact List.mem_toFinset.2 (List.mem_map.2 ⟨d, List.mem_filter.2 ⟨hd', hp t ht d hd' hm⟩, rfl⟩)

theorem le_trackCount {scores : ScoreMap} (hT : (ts.map TrackOps.uuid).Nodup)
    (h : ∀ t ∈ ts, ScoredTrack scores (TrackOps.uuid t)) : ts.length ≤ trackCount scores := by
  have : ts.length = (ts.map TrackOps.uuid).toFinset.card := by
    rw [List.toFinset_card_of_nodup hT, List.length_map]
  rw [this]
  refine Finset.card_le_card fun u hu => ?_
  obtain ⟨t, ht, rfl⟩ := List.mem_map.1 (List.mem_toFinset.1 hu)
  exact mem_trackNames.2 (h t ht)

theorem le_detectionCount {scores : ScoreMap} (hD : (ds.map TrackOps.uuid).Nodup)
    (h : ∀ t ∈ ds, ScoredDetection scores (TrackOps.uuid t)) :
    ds.length ≤ detectionCount scores := by
  have : ds.length = (ds.map TrackOps.uuid).toFinset.card := by
    rw [List.toFinset_card_of_nodup hD, List.length_map]
  rw [this]
  refine Finset.card_le_card fun u hu => ?_
  obtain ⟨t, ht, rfl⟩ := List.mem_map.1 (List.mem_toFinset.1 hu)
  exact mem_detectionNames.2 (h t ht)

/-- a one-to-one list of pairs agreeing on `p` has at most as many pairs as there are
detections with `p` and tracks without -/
theorem one_to_one_le (p : τ → Bool) {l : List (Uuid × Uuid)} (hl : OneToOne l)
    (h : ∀ x ∈ l, ∃ t ∈ ts, ∃ d ∈ ds, TrackOps.uuid t = x.1 ∧ TrackOps.uuid d = x.2 ∧ p t = p d) :
    l.length ≤ (ds.filter p).length + (ts.filter fun t => !p t).length := by
  classical
  let q : Uuid × Uuid → Bool := fun x => decide (x.2 ∈ (ds.filter p).map TrackOps.uuid)
  have h1 : (l.filter q).length ≤ (ds.filter p).length := by
    have hn : ((l.filter q).map (·.2)).Nodup := hl.2.sublist (List.filter_sublist.map _)
    have hs : (l.filter q).map (·.2) ⊆ (ds.filter p).map TrackOps.uuid := by
      intro u hu
      obtain ⟨x, hx, rfl⟩ := List.mem_map.1 hu
      have := (List.mem_filter.1 hx).2
      simpa [q] using this
    simpa using (hn.subperm hs).length_le
  have h2 : (l.filter fun x => !q x).length ≤ (ts.filter fun t => !p t).length := by
    have hn : ((l.filter fun x => !q x).map (·.1)).Nodup := hl.1.sublist (List.filter_sublist.map _)
    have hs : (l.filter fun x => !q x).map (·.1) ⊆ (ts.filter fun t => !p t).map TrackOps.uuid := by
      intro u hu
      obtain ⟨x, hx, rfl⟩ := List.mem_map.1 hu
      obtain ⟨hx, hq⟩ := List.mem_filter.1 hx
      obtain ⟨t, ht, d, hd, e1, e2, hp⟩ := h x hx
      refine List.mem_map.2 ⟨t, List.mem_filter.2 ⟨ht, ?_⟩, e1⟩
      rw [hp]
      by_contra hpd
      have : q x = true := by
        simp only [q, decide_eq_true_eq]
        exact List.mem_map.2 ⟨d, List.mem_filter.2 ⟨hd, by simpa using hpd⟩, e2⟩
      simp [this] at hq
    simpa using (hn.subperm hs).length_le
  have := List.length_eq_length_filter_add (l := l) q
  omega

end

theorem count_add (l : List MotObj) : ctrvCount l + ctraCount l = l.length :=
  (List.length_eq_length_filter_add (l := l) _).symm

theorem exists_ctrv {l : List MotObj} (h : 1 ≤ ctrvCount l) : ∃ x ∈ l, x.isLeft = true := by
  obtain ⟨x, hx⟩ := List.exists_mem_of_length_pos h
  exact ⟨x, List.mem_filter.1 hx⟩

theorem exists_ctra {l : List MotObj} (h : 1 ≤ ctraCount l) : ∃ x ∈ l, x.isLeft = false := by
  obtain ⟨x, hx⟩ := List.exists_mem_of_length_pos h
  obtain ⟨h1, h2⟩ := List.mem_filter.1 hx
  exact ⟨x, h1, by simpa using h2⟩

theorem isLeft_of_ctra_zero {l : List MotObj} (h : ctraCount l = 0) {x : MotObj} (hx : x ∈ l) :
    x.isLeft = true := by
  unfold ctraCount at h
  rw [List.length_eq_zero_iff, List.filter_eq_nil_iff] at h
  simpa using h x hx

theorem isLeft_of_ctrv_zero {l : List MotObj} (h : ctrvCount l = 0) {x : MotObj} (hx : x ∈ l) :
    x.isLeft = false := by
  unfold ctrvCount at h
  rw [List.length_eq_zero_iff, List.filter_eq_nil_iff] at h
  simpa using h x hx

theorem model_of_isSome {metric : MotObj → MotObj → Option FP} (hm : IsLibraryMetric metric)
    {t d : MotObj} (h : (metric t d).isSome) : t.isLeft = d.isLeft := by
  rcases hm with ⟨d₁, d₂, rfl⟩ | ⟨d₁, d₂, rfl⟩ <;> cases t <;> cases d <;>
    simp_all [euclideanScore, mahalanobisScore, scoreVariant]

theorem ciVisitor_ub_of_model {t d : MotObj} (h : t.isLeft ≠ d.isLeft) :
    ciVisitor t d = .ub .sizeMismatch := by
  match t, d with
  | .inl _, .inl _ => exact absurd rfl h
  | .inr _, .inr _ => exact absurd rfl h
  | .inl _, .inr _ => rfl
  | .inr _, .inl _ => rfl

theorem fuse_not_throw (a : AssociationMap) (ts ds : List MotObj) :
    (∃ out, fuseAssociations a ts ds ciVisitor = .ok out) ∨
      (fuseAssociations a ts ds ciVisitor).IsUb := by
  by_cases h : ∃ out, fuseAssociations a ts ds ciVisitor = .ok out
  · exact .inl h
  · push Not at h
    obtain ⟨-, p, -, -, -, ⟨e, he, -⟩ | ⟨w, -, hw⟩⟩ := Props.C29_failure a ts ds ciVisitor h
    · exact absurd he (ciVisitor_not_throw _ _ _)
    · right; rw [hw]; simp

theorem map_fst_zip_sublist {α β : Type} : ∀ (l : List α) (l' : List β),
    ((l.zip l').map (·.1)).Sublist l
  | [], _ => by simp
  | _ :: _, [] => by simp
  | x :: l, y :: l' => by
    simp only [List.zip_cons_cons, List.map_cons]
    exact (map_fst_zip_sublist l l').cons_cons x

theorem map_snd_zip_sublist {α β : Type} : ∀ (l : List α) (l' : List β),
    ((l.zip l').map (·.2)).Sublist l'
  | [], _ => by simp
  | _ :: _, [] => by simp
  | x :: l, y :: l' => by
    simp only [List.zip_cons_cons, List.map_cons]
    exact (map_snd_zip_sublist l l').cons_cons y

/-- the new tentative tracks -/
theorem rel_addAll {τ S C : Type} [TrackOps τ S C] {n : ℕ} (l : List τ)
    (make : τ → τ) (hmk : ∀ d, TrackOps.uuid (make d) = TrackOps.uuid d) {m : Manager τ}
    {T : Table τ} (h : Rel n m T) (hnd : (l.map TrackOps.uuid).Nodup)
    (hfree : ∀ d ∈ l, T.entry (TrackOps.uuid d) = none) :
    ∃ T', Rel n (Act.forEach (fun d => Manager.addTentativeTrack (make d)) l m).1 T' ∧
      (Act.forEach (fun d => Manager.addTentativeTrack (make d)) l m).2 = .ok () ∧
      T'.promo = T.promo ∧ T'.removal = T.removal ∧
      (∀ d ∈ l, T'.entry (TrackOps.uuid d) = some ⟨make d, 1, false⟩) ∧
      ∀ u, (∀ d ∈ l, TrackOps.uuid d ≠ u) → T'.entry u = T.entry u := by
  induction l generalizing m T with
  | nil => exact ⟨T, h, rfl, rfl, rfl, by simp, fun _ _ => rfl⟩
  | cons d l ih =>
    rw [List.map_cons, List.nodup_cons] at hnd
    have hd := hfree d (by simp)
    obtain ⟨h1, h2⟩ := rel_add (S := S) (C := C) h (make d)
    have hs : Table.step (.add (make d) : Op τ S C) T =
        ({ T with entry := fun v => if v = TrackOps.uuid d then some ⟨make d, 1, false⟩
            else T.entry v }, .ok ()) := by
      simp only [Table.step, hmk, hd]
    rw [hs] at h1 h2
    have hne : ∀ g ∈ l, TrackOps.uuid g ≠ TrackOps.uuid d := fun g hg hgd =>
      hnd.1 (hgd ▸ List.mem_map.2 ⟨g, hg, rfl⟩)
    obtain ⟨T', h3, h4, h5, h6, h7, h8⟩ := ih h1 hnd.2 (fun g hg => by
      simp only [if_neg (hne g hg)]
      exact hfree g (by simp [hg]))
    have hstep : Act.forEach (fun d => Manager.addTentativeTrack (make d)) (d :: l) m =
        Act.forEach (fun d => Manager.addTentativeTrack (make d)) l
          (Manager.addTentativeTrack (make d) m).1 := by
      rw [Act.forEach]
      rcases hx : Manager.addTentativeTrack (make d) m with ⟨s', o⟩
      rw [hx] at h2
      simp only at h2
      subst h2
      rfl
    rw [hstep]
    refine ⟨T', h3, h4, h5, h6, ?_, ?_⟩
    · intro g hg
      rcases List.mem_cons.1 hg with rfl | hg
      · rw [h8 _ (fun g' hg' => hne g' hg')]
        simp only [if_pos]
      · exact h7 g hg
    · intro u hu
      rw [h8 u (fun g hg => hu g (by simp [hg]))]
      simp only [if_neg (Ne.symm (hu d (by simp)))]

end Mot
