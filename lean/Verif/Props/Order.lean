import Verif.Proofs.Order
import Verif.Props.Pipeline
/-!
# Properties about the order of tracks and detections (C79)
-/

namespace Mot.Props

open Mot Spec Manager

section
variable {τ S C : Type} [TrackOps τ S C]

/-- C79: with distinct UUIDs the scores and the association map do not depend on the order of the
tracks and detections. -/
theorem C79_associate (solve : Solver) (metric : τ → τ → Option FP) (gate : FP → Bool)
    {ts ts' ds ds' : List τ} (hT : (ts.map TrackOps.uuid).Nodup) (hD : (ds.map TrackOps.uuid).Nodup)
    (ht : ts.Perm ts') (hd : ds.Perm ds') :
    scoreTracksAndDetections ts ds metric = scoreTracksAndDetections ts' ds' metric ∧
    associateStep solve metric gate ts ds = associateStep solve metric gate ts' ds' := by
  have h := score_perm metric hT hD ht hd
  refine ⟨h, ?_⟩
  unfold associateStep
  rw [h]

/-- C79: nor does the fused list, not even its order, if each track has one detection. -/
theorem C79_fuse (a : AssociationMap) (ha : ∀ e ∈ a.entries, ∃ u, e.2 = [u])
    {ts ts' ds ds' : List τ} (hT : (ts.map TrackOps.uuid).Nodup) (hD : (ds.map TrackOps.uuid).Nodup)
    (ht : ts.Perm ts') (hd : ds.Perm ds') (f : τ → τ → Outcome τ) :
    fuseAssociations a ts ds f = fuseAssociations a ts' ds' f := by
  rw [fuseAssociations_eq, fuseAssociations_eq, associatedPairs_perm a ha hT hD ht hd]

end

/-- C79: two managers that look the same, given the same detections in any order, complete the
cycle in the same way and look the same afterwards. -/
theorem C79_cycle {n n' : ℕ} {m m' : Manager MotObj} (hr : ReachableIn _ _ n m)
    (hr' : ReachableIn _ _ n' m') (hn : n + 3 < 2 ^ 64) (hn' : n' + 3 < 2 ^ 64)
    (hv : SameView m m') {solve : Solver} (hs : IsPermSolver solve)
    (metric : MotObj → MotObj → Option FP) (gate : FP → Bool) {ds ds' : List MotObj}
    (hD : (ds.map TrackOps.uuid).Nodup) (hd : ds.Perm ds')
    (hbig : m.getAllTracks.length * ds.length < 2 ^ 64) :
    (cycle solve metric gate ciVisitor ds m).2 = (cycle solve metric gate ciVisitor ds' m').2 ∧
    SameView (cycle solve metric gate ciVisitor ds m).1 (cycle solve metric gate ciVisitor ds' m').1 := by
  obtain ⟨T, h⟩ := reachable_rel hr (by omega)
  obtain ⟨T', h'⟩ := reachable_rel hr' (by omega)
  obtain rfl := table_of_sameView h h' (by omega) (by omega) hv
  have hD' : (ds'.map TrackOps.uuid).Nodup := (hd.map _).nodup_iff.1 hD
  have hbig' : m'.getAllTracks.length * ds'.length < 2 ^ 64 := by
    rw [← hv.all.length_eq, ← hd.length_eq]; exact hbig
  have ha := (C79_associate solve metric gate h.nodup hD hv.all hd).2
  rcases hx : associateStep solve metric gate m.getAllTracks ds with a | e | w
  · have hsing : ∀ e ∈ a.entries, ∃ u, e.2 = [u] := by
      have hb : (pruneScoresIf (scoreTracksAndDetections m.getAllTracks ds metric) gate).entries.length
          < 2 ^ 64 :=
        lt_of_le_of_lt ((prune_length_le _ _).trans (score_length_le _ _ _)) hbig
      obtain ⟨hsing, -⟩ := C19_one_to_one hs hb hx
      exact fun e he => hsing e.1 e.2 (SMap.find?_eq_some.2 he)
    have hx' := ha.symm.trans hx
    have hfe := C79_fuse a hsing h.nodup hD hv.all hd ciVisitor
    rcases hy : fuseAssociations a m.getAllTracks ds ciVisitor with fused | e | w
    · have hy' := hfe.symm.trans hy
      obtain ⟨T₁, r1, o1, p1, q1, u1, k1⟩ := cycle_rel (by omega) h hs hD hbig hx hy
      obtain ⟨T₂, r2, o2, p2, q2, u2, k2⟩ := cycle_rel (by omega) h' hs hD' hbig' hx' hy'
      refine ⟨o1.trans o2.symm, ?_⟩
      have hent : T₁.entry = T₂.entry := by
        funext u
        by_cases hu : u ∈ a.keys
        · obtain ⟨e, y, hym, f, he, hl, hc, hT₁⟩ := k1 u hu
          obtain ⟨e', y', hym', f', he', hl', hc', hT₂⟩ := k2 u hu
          rw [he] at he'
          cases he'
          rw [hl] at hl'
          have hyy : y = y' := by
            refine eq_of_uuid hD hym (hd.mem_iff.2 hym') ?_
            simpa using hl'
          subst hyy
          rw [hc] at hc'
          cases hc'
          rw [hT₁, hT₂]
        · rw [u1 u hu, u2 u hu]
      have hTT : T₁ = T₂ := by
        have hp := p1.trans p2.symm
        have hq := q1.trans q2.symm
        cases T₁; cases T₂
        simp only at hent hp hq
        rw [hent, hp, hq]
      subst hTT
      exact r1.sameView r2
    · have hy' := hfe.symm.trans hy
      unfold cycle cycleOn
      rw [hx, hx']
      simp only [hy, hy']
      exact ⟨trivial, hv⟩
    · have hy' := hfe.symm.trans hy
      unfold cycle cycleOn
      rw [hx, hx']
      simp only [hy, hy']
      exact ⟨trivial, hv⟩
  · have hx' := ha.symm.trans hx
    unfold cycle cycleOn
    rw [hx, hx']
    exact ⟨rfl, hv⟩
  · have hx' := ha.symm.trans hx
    unfold cycle cycleOn
    rw [hx, hx']
    exact ⟨rfl, hv⟩

/-- C79: nor does the order matter for the tracks started afterwards. -/
theorem C79_start {n n' : ℕ} {m m' : Manager MotObj} (hr : ReachableIn _ _ n m)
    (hr' : ReachableIn _ _ n' m') (hn : n + 3 < 2 ^ 64) (hn' : n' + 3 < 2 ^ 64)
    (hv : SameView m m') (a : AssociationMap) {ds ds' : List MotObj}
    (hD : (ds.map TrackOps.uuid).Nodup) (hd : ds.Perm ds')
    (hnew : ∀ d ∈ ds, ¬ m.Managed (TrackOps.uuid d)) :
    (addUnassociated makeTrack2 a ds m).2 = .ok () ∧
    (addUnassociated makeTrack2 a ds' m').2 = .ok () ∧
    SameView (addUnassociated makeTrack2 a ds m).1 (addUnassociated makeTrack2 a ds' m').1 := by
  obtain ⟨T, h⟩ := reachable_rel hr (by omega)
  obtain ⟨T', h'⟩ := reachable_rel hr' (by omega)
  obtain rfl := table_of_sameView h h' (by omega) (by omega) hv
  have hfree : ∀ d ∈ ds, T.entry (TrackOps.uuid d) = none := fun d hdm => by
    rcases hx : T.entry (TrackOps.uuid d) with _ | e
    · rfl
    · exact absurd (h.managed.2 ⟨e, hx⟩) (hnew d hdm)
  have hmk : ∀ d : MotObj, TrackOps.uuid (makeTrack2 d) = TrackOps.uuid d := by
    rintro (d | d) <;> rfl
  have hp := hd.filter fun d => !(HasAssociation.new a).detection d
  have hnd : ((ds.filter fun d => !(HasAssociation.new a).detection d).map TrackOps.uuid).Nodup :=
    hD.sublist (List.filter_sublist.map _)
  obtain ⟨T₁, r1, o1, p1, q1, k1, u1⟩ := rel_addAll
    (ds.filter fun d => !(HasAssociation.new a).detection d) makeTrack2 hmk h hnd
    fun d hdm => hfree d (List.mem_filter.1 hdm).1
  obtain ⟨T₂, r2, o2, p2, q2, k2, u2⟩ := rel_addAll
    (ds'.filter fun d => !(HasAssociation.new a).detection d) makeTrack2 hmk h'
    ((hp.map _).nodup_iff.1 hnd) fun d hdm => hfree d (hd.mem_iff.2 (List.mem_filter.1 hdm).1)
  refine ⟨o1, o2, ?_⟩
  have hent : T₁.entry = T₂.entry := by
    funext u
    by_cases hu : ∃ d ∈ ds.filter fun d => !(HasAssociation.new a).detection d, TrackOps.uuid d = u
    · obtain ⟨d, hdm, rfl⟩ := hu
      rw [k1 d hdm, k2 d (hp.mem_iff.1 hdm)]
    · push Not at hu
      rw [u1 u hu, u2 u fun d hdm => hu d (hp.mem_iff.2 hdm)]
  have hTT : T₁ = T₂ := by
    have hp := p1.trans p2.symm
    have hq := q1.trans q2.symm
    cases T₁; cases T₂
    simp only at hent hp hq
    rw [hent, hp, hq]
  subst hTT
  exact r1.sameView r2

/-- distinct UUIDs, two orders, the same scores -/
example :
    (([obj 1 5, obj 2 6].map TrackOps.uuid).Nodup ∧ ([obj 8 1, obj 9 2].map TrackOps.uuid).Nodup ∧
      [obj 1 5, obj 2 6].Perm [obj 2 6, obj 1 5]) ∧
    (scoreTracksAndDetections [obj 2 6, obj 1 5] [obj 9 2, obj 8 1]
      (fun t d => some (t.state - d.state))).entries =
      [(mkPair ⟨[1]⟩ ⟨[8]⟩, 4), (mkPair ⟨[1]⟩ ⟨[9]⟩, 3), (mkPair ⟨[2]⟩ ⟨[8]⟩, 5),
        (mkPair ⟨[2]⟩ ⟨[9]⟩, 4)] := by
  refine ⟨⟨?_, ?_, ?_⟩, ?_⟩
  · decide +kernel
  · decide +kernel
  · exact List.Perm.swap _ _ _
  · decide +kernel

/-- C79 needs distinct UUIDs: of two detections with one UUID the last one counts. -/
theorem C79_duplicates : ∃ (ts ds ds' : List (DynObj ℕ ℕ)) (metric : DynObj ℕ ℕ → DynObj ℕ ℕ → Option ℕ),
    ds.Perm ds' ∧ (scoreTracksAndDetections ts ds metric).entries ≠
      (scoreTracksAndDetections ts ds' metric).entries :=
  ⟨[obj 1 5], [obj 8 1, obj 8 2], [obj 8 2, obj 8 1], fun t d => some (t.state - d.state),
    List.Perm.swap _ _ _, by decide +kernel⟩

/-- one manager with one track, and two orders of detections -/
example {solve : Solver} (hs : IsOptimalSolver solve) :
    let m := (addTentativeTrack (motCtrv 1) (Manager.new 3 0)).1
    (cycle solve unitMetric (fun _ => false) ciVisitor [motCtrv 7, motCtra 8] m).2 =
      (cycle solve unitMetric (fun _ => false) ciVisitor [motCtra 8, motCtrv 7] m).2 := by
  intro m
  have hreach : ReachableIn _ _ 0 (Manager.new 3 0 : Manager MotObj) :=
    ⟨3, 0, [], [], .nil (Reordered.refl _), rfl⟩
  have hr : ReachableIn _ _ 0 m := reachable_step hreach (.add (motCtrv 1))
  obtain ⟨T, h⟩ := reachable_rel hr (by norm_num)
  have hD : ([motCtrv 7, motCtra 8].map TrackOps.uuid).Nodup := by
    show [(⟨[7]⟩ : Uuid), ⟨[8]⟩].Nodup
    decide +kernel
  exact (C79_cycle hr hr (by norm_num) (by norm_num) (h.sameView h) hs.perm unitMetric _ hD
    (List.Perm.swap _ _ _) (by
      rw [show m.getAllTracks = [motCtrv 1] from rfl]
      simp)).1

end Mot.Props
