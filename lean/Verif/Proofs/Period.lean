import Verif.Proofs.Cycle
import Verif.Proofs.Json
import Verif.Spec.Period
/-!
# Helper lemmas for a period of the pipeline
-/

namespace Mot

open Manager Spec

section
variable {τ S C : Type} [TrackOps τ S C]

theorem cycleOn_ok {solve : Solver} {metric : τ → τ → Option FP} {gate : FP → Bool}
    {visitor : τ → τ → Outcome τ} {ts ds : List τ} {m m' : Manager τ} {a : AssociationMap}
    (h : cycleOn solve metric gate visitor ts ds m = (m', .ok a)) :
    associateStep solve metric gate ts ds = .ok a ∧
      ∃ fused, fuseAssociations a ts ds visitor = .ok fused := by
  unfold cycleOn at h
  split at h
  · simp at h
  · simp at h
  · next a' ha =>
    split at h
    · simp at h
    · simp at h
    · next fused hf =>
      unfold Act.andThen at h
      rcases hx : storeFused fused m with ⟨s, _ | _ | _⟩
      · rw [hx] at h
        simp only at h
        rcases hy : Manager.updateTrackLists a' s with ⟨s', _ | _ | _⟩
        · rw [hy] at h
          simp only [Prod.mk.injEq, Outcome.ok.injEq] at h
          obtain ⟨-, rfl⟩ := h
          exact ⟨ha, fused, hf⟩
        · rw [hy] at h; simp at h
        · rw [hy] at h; simp at h
      · rw [hx] at h; simp at h
      · rw [hx] at h; simp at h

theorem period_ok {solve : Solver} {metric : τ → τ → Option FP} {gate : FP → Bool}
    {visitor : τ → τ → Outcome τ} {make : τ → τ} {align : τ → Outcome τ} {ds : List τ}
    {m m' : Manager τ} {a : AssociationMap} :
    period solve metric gate visitor make align ds m = (m', .ok a) ↔
      ∃ ds' ts' m₁, List.Forall₂ (fun o o' => align o = .ok o') ds ds' ∧
        List.Forall₂ (fun o o' => align o = .ok o') m.getAllTracks ts' ∧
        cycleOn solve metric gate visitor ts' ds' m = (m₁, .ok a) ∧
        addUnassociated make a ds' m₁ = (m', .ok ()) := by
  simp only [← Outcome.mapM'_ok_iff]
  constructor
  · intro h
    unfold period at h
    split at h
    · simp at h
    · simp at h
    · next ds' hds =>
      split at h
      · simp at h
      · simp at h
      · next ts' hts =>
        unfold Act.andThen at h
        rcases hx : cycleOn solve metric gate visitor ts' ds' m with ⟨s, a' | _ | _⟩
        · rw [hx] at h
          simp only at h
          rcases hy : addUnassociated make a' ds' s with ⟨s', _ | _ | _⟩
          · rw [hy] at h
            simp only [Prod.mk.injEq, Outcome.ok.injEq] at h
            obtain ⟨rfl, rfl⟩ := h
            exact ⟨ds', ts', s, hds, hts, hx, hy⟩
          · rw [hy] at h; simp at h
          · rw [hy] at h; simp at h
        · rw [hx] at h; simp at h
        · rw [hx] at h; simp at h
  · rintro ⟨ds', ts', m₁, hds, hts, hx, hy⟩
    unfold period Act.andThen
    simp only [hds, hts, hx, hy]

theorem unassociated_iff (a : AssociationMap) (d : τ) :
    (HasAssociation.new a).detection d = false ↔ Unassociated a d := by
  rw [← Bool.not_eq_true, (Props.C25_has_association a d d).2]
  unfold Unassociated
  push Not
  rfl

/-- starting new tracks succeeds exactly if their UUIDs are free -/
theorem rel_addAll_cases {n : ℕ} (l : List τ) (make : τ → τ)
    (hmk : ∀ d, TrackOps.uuid (make d) = TrackOps.uuid d) {m : Manager τ} {T : Table τ}
    (h : Rel n m T) (hnd : (l.map TrackOps.uuid).Nodup) :
    (∀ d ∈ l, T.entry (TrackOps.uuid d) = none) ∨
      (Act.forEach (fun d => Manager.addTentativeTrack (make d)) l m).2 = .throw .logicError := by
  induction l generalizing m T with
  | nil => exact .inl (by simp)
  | cons d l ih =>
    rw [List.map_cons, List.nodup_cons] at hnd
    obtain ⟨h1, h2⟩ := rel_add (S := S) (C := C) h (make d)
    have hne : ∀ g ∈ l, TrackOps.uuid g ≠ TrackOps.uuid d := fun g hg hgd =>
      hnd.1 (hgd ▸ List.mem_map.2 ⟨g, hg, rfl⟩)
    rw [Act.forEach]
    rcases hd : T.entry (TrackOps.uuid d) with _ | e
    · have hs : Table.step (.add (make d) : Op τ S C) T =
          ({ T with entry := fun v => if v = TrackOps.uuid d then some ⟨make d, 1, false⟩
              else T.entry v }, .ok ()) := by
        simp only [Table.step, hmk, hd]
      rw [hs] at h1 h2
      rcases hx : Manager.addTentativeTrack (make d) m with ⟨s', o⟩
      rw [hx] at h1 h2
      simp only at h2
      subst h2
      rcases ih h1 hnd.2 with hi | hi
      · left
        intro g hg
        rcases List.mem_cons.1 hg with rfl | hg
        · exact hd
        · have := hi g hg
          simp only [if_neg (hne g hg)] at this
          exact this
      · exact .inr hi
    · have hs : Table.step (.add (make d) : Op τ S C) T = (T, .throw .logicError) := by
        simp only [Table.step, hmk, hd]
      rw [hs] at h1 h2
      rcases hx : Manager.addTentativeTrack (make d) m with ⟨s', o⟩
      rw [hx] at h2
      simp only at h2
      subst h2
      exact .inr rfl

end

section
variable {S₁ C₁ S₂ C₂ : Type}

theorem makeTrack2_uuid (d : Obj2 S₁ C₁ S₂ C₂) : TrackOps.uuid (makeTrack2 d) = TrackOps.uuid d := by
  cases d <;> rfl

/-- what a completed period does to the table of tracks -/
theorem period_rel {n : ℕ} (hn : n + 3 < 2 ^ 64) {m m' : Manager (Obj2 S₁ C₁ S₂ C₂)}
    {T : Table (Obj2 S₁ C₁ S₂ C₂)} (h : Rel n m T) {solve : Solver} (hs : IsPermSolver solve)
    {metric : Obj2 S₁ C₁ S₂ C₂ → Obj2 S₁ C₁ S₂ C₂ → Option FP} {gate : FP → Bool}
    {visitor : Obj2 S₁ C₁ S₂ C₂ → Obj2 S₁ C₁ S₂ C₂ → Outcome (Obj2 S₁ C₁ S₂ C₂)}
    (hv : ∀ t d f, visitor t d = .ok f → SameObject t f)
    {align : Obj2 S₁ C₁ S₂ C₂ → Outcome (Obj2 S₁ C₁ S₂ C₂)}
    (hal : ∀ o o', align o = .ok o' → SameObject o o') {ds : List (Obj2 S₁ C₁ S₂ C₂)}
    (hds : (ds.map TrackOps.uuid).Nodup) (hbig : m.getAllTracks.length * ds.length < 2 ^ 64)
    {a : AssociationMap}
    (hp : period solve metric gate visitor makeTrack2 align ds m = (m', .ok a)) :
    ∃ T', Rel (n + 1) m' T' ∧ T'.promo = T.promo ∧ T'.removal = T.removal ∧
      (∀ d ∈ ds, Unassociated a d →
        ∃ y, align d = .ok y ∧ T'.entry (TrackOps.uuid d) = some ⟨makeTrack2 y, 1, false⟩) ∧
      (∀ u, (∀ d ∈ ds, TrackOps.uuid d = u → ¬ Unassociated a d) → u ∉ a.keys →
        T'.entry u = (T.entry u).bind (Table.updateEntry T.promo T.removal false)) ∧
      (∀ u, (∀ d ∈ ds, TrackOps.uuid d = u → ¬ Unassociated a d) → u ∈ a.keys →
        ∃ e x, ∃ d ∈ ds, ∃ y f, T.entry u = some e ∧ align e.track = .ok x ∧ align d = .ok y ∧
          a.find? u = some [TrackOps.uuid d] ∧ visitor x y = .ok f ∧
          T'.entry u = Table.updateEntry T.promo T.removal true { e with track := f }) := by
  obtain ⟨ds', ts', m₁, hd, ht, hc, hadd⟩ := period_ok.1 hp
  have hd' : List.Forall₂ SameObject ds ds' := hd.imp fun x y => hal x y
  have ht' : List.Forall₂ SameObject m.getAllTracks ts' := ht.imp fun x y => hal x y
  have hds' : (ds'.map TrackOps.uuid).Nodup := by rw [SameObject.uuids hd']; exact hds
  obtain ⟨ha, fused, hf⟩ := cycleOn_ok hc
  obtain ⟨T₁, r1, -, r3, r4, r5, r6⟩ := cycleOn_rel (by omega) h hs hv ht' hds'
    (by rw [← ht'.length_eq, ← hd'.length_eq]; exact hbig) ha hf
  rw [hc] at r1
  have hsub : ((ds'.filter fun d => !(HasAssociation.new a).detection d).map TrackOps.uuid).Nodup :=
    hds'.sublist (List.filter_sublist.map _)
  have hfree : ∀ d ∈ ds'.filter fun d => !(HasAssociation.new a).detection d,
      T₁.entry (TrackOps.uuid d) = none := by
    rcases rel_addAll_cases _ makeTrack2 makeTrack2_uuid r1 hsub with hx | hx
    · exact hx
    · unfold addUnassociated at hadd
      rw [hadd] at hx
      cases hx
  obtain ⟨T₂, q1, -, q3, q4, q5, q6⟩ := rel_addAll _ makeTrack2 makeTrack2_uuid r1 hsub hfree
  have hm' : (Act.forEach (fun d => Manager.addTentativeTrack (makeTrack2 d))
      (ds'.filter fun d => !(HasAssociation.new a).detection d) m₁).1 = m' := by
    unfold addUnassociated at hadd
    rw [hadd]
  rw [hm'] at q1
  have mem : ∀ y ∈ ds', ∃ d ∈ ds, align d = .ok y := by
    intro y hy
    obtain ⟨i, hi, rfl⟩ := List.mem_iff_getElem.1 hy
    exact ⟨ds[i]'(by rw [hd.length_eq]; exact hi), List.getElem_mem _,
      (List.forall₂_iff_get.1 hd).2 i _ hi⟩
  have mem' : ∀ d ∈ ds, ∃ y ∈ ds', align d = .ok y := by
    intro d hdm
    obtain ⟨i, hi, rfl⟩ := List.mem_iff_getElem.1 hdm
    exact ⟨ds'[i]'(by rw [← hd.length_eq]; exact hi), List.getElem_mem _,
      (List.forall₂_iff_get.1 hd).2 i hi _⟩
  have memt : ∀ x ∈ ts', ∃ t ∈ m.getAllTracks, align t = .ok x := by
    intro y hy
    obtain ⟨i, hi, rfl⟩ := List.mem_iff_getElem.1 hy
    exact ⟨m.getAllTracks[i]'(by rw [ht.length_eq]; exact hi), List.getElem_mem _,
      (List.forall₂_iff_get.1 ht).2 i _ hi⟩
  have hold : ∀ u, (∀ d ∈ ds, TrackOps.uuid d = u → ¬ Unassociated a d) → T₂.entry u = T₁.entry u := by
    intro u hu
    refine q6 u fun y hy hyu => ?_
    obtain ⟨hy, hya⟩ := List.mem_filter.1 hy
    obtain ⟨d, hdm, hdy⟩ := mem y hy
    have hdu := (hal d y hdy).uuid
    refine hu d hdm (hdu ▸ hyu) ?_
    have : Unassociated a y := (unassociated_iff a y).1 (by simpa using hya)
    intro v l hl
    rw [← hdu]
    exact this v l hl
  refine ⟨T₂, q1, q3.trans r3, q4.trans r4, ?_, ?_, ?_⟩
  · intro d hdm hda
    obtain ⟨y, hy, hdy⟩ := mem' d hdm
    have hdu := (hal d y hdy).uuid
    refine ⟨y, hdy, ?_⟩
    rw [← hdu]
    refine q5 y (List.mem_filter.2 ⟨hy, ?_⟩)
    have : Unassociated a y := fun v l hl => by rw [hdu]; exact hda v l hl
    simp only [(unassociated_iff a y).2 this, Bool.not_false]
  · intro u hu hk
    rw [hold u hu, r5 u hk]
  · intro u hu hk
    obtain ⟨e, x, hx, y, hy, f, he, -, hxu, hl, hvf, hT⟩ := r6 u hk
    obtain ⟨t, htm, htx⟩ := memt x hx
    obtain ⟨d, hdm, hdy⟩ := mem y hy
    have htu := (hal t x htx).uuid
    obtain ⟨e', he', rfl⟩ := h.hasTrack.1 ⟨htm, htu.symm.trans hxu⟩
    rw [he] at he'
    cases he'
    refine ⟨e, x, d, hdm, y, f, he, htx, hdy, ?_, hvf, ?_⟩
    · rw [← (hal d y hdy).uuid]; exact hl
    · rw [hold u hu, hT]

/-- whether the tracks of the detections without association can be started -/
theorem period_cases {n : ℕ} (hn : n + 3 < 2 ^ 64) {m : Manager (Obj2 S₁ C₁ S₂ C₂)}
    {T : Table (Obj2 S₁ C₁ S₂ C₂)} (h : Rel n m T) {solve : Solver} (hs : IsPermSolver solve)
    {metric : Obj2 S₁ C₁ S₂ C₂ → Obj2 S₁ C₁ S₂ C₂ → Option FP} {gate : FP → Bool}
    {visitor : Obj2 S₁ C₁ S₂ C₂ → Obj2 S₁ C₁ S₂ C₂ → Outcome (Obj2 S₁ C₁ S₂ C₂)}
    (hv : ∀ t d f, visitor t d = .ok f → SameObject t f)
    {align : Obj2 S₁ C₁ S₂ C₂ → Outcome (Obj2 S₁ C₁ S₂ C₂)}
    (hal : ∀ o o', align o = .ok o' → SameObject o o') {ds : List (Obj2 S₁ C₁ S₂ C₂)}
    (hds : (ds.map TrackOps.uuid).Nodup) (hbig : m.getAllTracks.length * ds.length < 2 ^ 64)
    {ds' ts' : List (Obj2 S₁ C₁ S₂ C₂)}
    (hd : List.Forall₂ (fun o o' => align o = .ok o') ds ds')
    (ht : List.Forall₂ (fun o o' => align o = .ok o') m.getAllTracks ts')
    {a : AssociationMap} (ha : associateStep solve metric gate ts' ds' = .ok a)
    {fused : List (Obj2 S₁ C₁ S₂ C₂)} (hf : fuseAssociations a ts' ds' visitor = .ok fused) :
    ((∀ d ∈ ds, Unassociated a d → m.Managed (TrackOps.uuid d) →
        (if TrackOps.uuid d ∈ a.keys then min (m.counter (TrackOps.uuid d) + 1) m.promo.toNat
          else m.counter (TrackOps.uuid d) - 1) ≤ m.removal.toNat) ∧
      (period solve metric gate visitor makeTrack2 align ds m).2 = .ok a) ∨
    ((∃ d ∈ ds, Unassociated a d ∧ m.Managed (TrackOps.uuid d) ∧
        m.removal.toNat < if TrackOps.uuid d ∈ a.keys
          then min (m.counter (TrackOps.uuid d) + 1) m.promo.toNat
          else m.counter (TrackOps.uuid d) - 1) ∧
      (period solve metric gate visitor makeTrack2 align ds m).2 = .throw .logicError) := by
  have hd' : List.Forall₂ SameObject ds ds' := hd.imp fun x y => hal x y
  have ht' : List.Forall₂ SameObject m.getAllTracks ts' := ht.imp fun x y => hal x y
  have hds' : (ds'.map TrackOps.uuid).Nodup := by rw [SameObject.uuids hd']; exact hds
  obtain ⟨T₁, r1, r2, r3, r4, r5, r6⟩ := cycleOn_rel (by omega) h hs hv ht' hds'
    (by rw [← ht'.length_eq, ← hd'.length_eq]; exact hbig) ha hf
  rcases hc : cycleOn solve metric gate visitor ts' ds' m with ⟨m₁, o⟩
  rw [hc] at r1 r2
  simp only at r1 r2
  subst r2
  have hper : period solve metric gate visitor makeTrack2 align ds m =
      Act.andThen (addUnassociated makeTrack2 a ds') (fun _ m => (m, .ok a)) m₁ := by
    unfold period
    rw [Outcome.mapM'_ok_iff.2 hd, Outcome.mapM'_ok_iff.2 ht]
    simp only
    rw [Act.andThen, hc]
  have hsub : ((ds'.filter fun d => !(HasAssociation.new a).detection d).map TrackOps.uuid).Nodup :=
    hds'.sublist (List.filter_sublist.map _)
  have hfilter : ∀ d ∈ ds, Unassociated a d → ∃ y,
      y ∈ ds'.filter (fun d => !(HasAssociation.new a).detection d) ∧
      TrackOps.uuid y = TrackOps.uuid d := by
    intro d hdm hda
    obtain ⟨i, hi, rfl⟩ := List.mem_iff_getElem.1 hdm
    have := (List.forall₂_iff_get.1 hd').2 i hi (by rw [← hd.length_eq]; exact hi)
    refine ⟨_, List.mem_filter.2 ⟨List.getElem_mem _, ?_⟩, this.uuid⟩
    have : Unassociated a (ds'[i]'(by rw [← hd.length_eq]; exact hi)) := fun v l hl => by
      have e := this.uuid
      simp only [List.get_eq_getElem] at e
      rw [e]; exact hda v l hl
    simp only [(unassociated_iff a _).2 this, Bool.not_false]
  have hfilter' : ∀ y ∈ ds'.filter (fun d => !(HasAssociation.new a).detection d), ∃ d ∈ ds,
      Unassociated a d ∧ TrackOps.uuid y = TrackOps.uuid d := by
    intro y hy
    obtain ⟨hy, hya⟩ := List.mem_filter.1 hy
    obtain ⟨i, hi, rfl⟩ := List.mem_iff_getElem.1 hy
    have := (List.forall₂_iff_get.1 hd').2 i (by rw [hd.length_eq]; exact hi) hi
    have e := this.uuid
    simp only [List.get_eq_getElem] at e
    refine ⟨_, List.getElem_mem _, ?_, e⟩
    have hx : Unassociated a ds'[i] := (unassociated_iff a _).1 (by simpa using hya)
    intro v l hl
    rw [← e]
    exact hx v l hl
  have hnone : ∀ u, T₁.entry u = none ↔ (m.Managed u →
      (if u ∈ a.keys then min (m.counter u + 1) m.promo.toNat else m.counter u - 1) ≤
        m.removal.toNat) := by
    intro u
    by_cases hu : u ∈ a.keys
    · obtain ⟨e, x, -, y, -, f, he, -, -, -, -, hT⟩ := r6 u hu
      rw [hT, h.counter_some (by omega) he, h.promo, h.removal, if_pos hu, h.managed]
      simp only [Table.updateEntry, Table.newCount, if_true]
      constructor
      · intro h1 _
        split at h1
        · assumption
        · cases h1
      · intro h1
        rw [if_pos (h1 ⟨e, he⟩)]
    · rw [r5 u hu, if_neg hu, h.managed]
      rcases he : T.entry u with _ | e
      · simp
      · rw [h.counter_some (by omega) he, h.removal]
        simp only [Option.bind_some, Table.updateEntry, Table.newCount, Bool.false_eq_true, if_false]
        constructor
        · intro h1 _
          split at h1
          · assumption
          · cases h1
        · intro h1
          rw [if_pos (h1 ⟨e, rfl⟩)]
  by_cases hall : ∀ y ∈ ds'.filter fun d => !(HasAssociation.new a).detection d,
      T₁.entry (TrackOps.uuid y) = none
  · left
    constructor
    · intro d hdm hda
      obtain ⟨y, hy, he⟩ := hfilter d hdm hda
      have := hall y hy
      rw [he, hnone] at this
      exact this
    · obtain ⟨T₂, q1, q2, -⟩ := rel_addAll _ makeTrack2 makeTrack2_uuid r1 hsub hall
      rw [hper, Act.andThen]
      change (addUnassociated makeTrack2 a ds' m₁).2 = .ok () at q2
      rcases hx : addUnassociated makeTrack2 a ds' m₁ with ⟨s, o⟩
      rw [hx] at q2
      simp only at q2
      subst q2
      rfl
  · right
    constructor
    · push Not at hall
      obtain ⟨y, hy, he⟩ := hall
      obtain ⟨d, hdm, hda, hyd⟩ := hfilter' y hy
      rw [hyd, ne_eq, hnone] at he
      push Not at he
      exact ⟨d, hdm, hda, he⟩
    · have q2 := (rel_addAll_cases _ makeTrack2 makeTrack2_uuid r1 hsub).resolve_left hall
      rw [hper, Act.andThen]
      change (addUnassociated makeTrack2 a ds' m₁).2 = _ at q2
      rcases hx : addUnassociated makeTrack2 a ds' m₁ with ⟨s, o⟩
      rw [hx] at q2
      simp only at q2
      subst q2
      rfl

end

end Mot
