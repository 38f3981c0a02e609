import Verif.Proofs.Pipeline
/-!
# Lemmas about the order of tracks and detections
-/

namespace Mot

open Spec Manager

section
variable {τ δ S C S' C' : Type} [TrackOps τ S C] [TrackOps δ S' C']

theorem score_perm {α : Type} (metric : τ → δ → Option α) {ts ts' : List τ} {ds ds' : List δ}
    (hT : (ts.map TrackOps.uuid).Nodup) (hD : (ds.map TrackOps.uuid).Nodup) (ht : ts.Perm ts')
    (hd : ds.Perm ds') :
    scoreTracksAndDetections ts ds metric = scoreTracksAndDetections ts' ds' metric := by
  have hT' : (ts'.map TrackOps.uuid).Nodup := (ht.map _).nodup_iff.1 hT
  have hD' : (ds'.map TrackOps.uuid).Nodup := (hd.map _).nodup_iff.1 hD
  refine SMap.ext_find? fun k => ?_
  obtain ⟨a, b⟩ : ∃ a b, k = mkPair a b := ⟨(ofLex k).1, (ofLex k).2, rfl⟩
  obtain ⟨b, rfl⟩ := b
  by_cases h : ((scoreTracksAndDetections ts ds metric).find? (mkPair a b)).isSome
  · obtain ⟨t, htm, d, hdm, rfl, rfl, -⟩ := (score_isSome_iff metric ts ds a b).1 h
    rw [Props.C16_value_of_distinct ts ds metric hT hD htm hdm,
      Props.C16_value_of_distinct ts' ds' metric hT' hD' (ht.mem_iff.1 htm) (hd.mem_iff.1 hdm)]
  · have h' : ¬ ((scoreTracksAndDetections ts' ds' metric).find? (mkPair a b)).isSome := by
      intro h'
      obtain ⟨t, htm, d, hdm, rfl, rfl, hs⟩ := (score_isSome_iff metric ts' ds' a b).1 h'
      exact h ((score_isSome_iff metric ts ds _ _).2
        ⟨t, ht.mem_iff.2 htm, d, hd.mem_iff.2 hdm, rfl, rfl, hs⟩)
    rw [Option.not_isSome_iff_eq_none.1 h, Option.not_isSome_iff_eq_none.1 h']

theorem filter_uuid_perm {ts ts' : List τ} (hT : (ts.map TrackOps.uuid).Nodup) (ht : ts.Perm ts')
    (u : Uuid) : (ts.filter fun t => decide (TrackOps.uuid t = u)) =
      ts'.filter fun t => decide (TrackOps.uuid t = u) := by
  have hp := ht.filter fun t => decide (TrackOps.uuid t = u)
  have hsub : (ts.filter fun t => decide (TrackOps.uuid t = u)).length ≤ 1 := by
    rcases hl : ts.filter fun t => decide (TrackOps.uuid t = u) with _ | ⟨x, _ | ⟨y, l⟩⟩
    · simp
    · simp
    · exfalso
      have hnd : ((ts.filter fun t => decide (TrackOps.uuid t = u)).map TrackOps.uuid).Nodup :=
        hT.sublist (List.filter_sublist.map _)
      have hm : ∀ z ∈ ts.filter fun t => decide (TrackOps.uuid t = u), TrackOps.uuid z = u :=
        fun z hz => of_decide_eq_true (List.mem_filter.1 hz).2
      rw [hl] at hnd hm
      simp only [List.map_cons, List.nodup_cons, List.mem_cons, not_or] at hnd
      exact hnd.1.1 ((hm x (by simp)).trans (hm y (by simp)).symm)
  rcases hl : ts.filter fun t => decide (TrackOps.uuid t = u) with _ | ⟨x, _ | ⟨y, l⟩⟩
  · rw [hl] at hp; exact hp.nil_eq
  · rw [hl] at hp; exact (List.perm_singleton.1 hp.symm).symm
  · rw [hl] at hsub; simp at hsub

theorem associatedPairs_perm (a : AssociationMap) (ha : ∀ e ∈ a.entries, ∃ u, e.2 = [u])
    {ts ts' : List τ} {ds ds' : List δ}
    (hT : (ts.map TrackOps.uuid).Nodup) (hD : (ds.map TrackOps.uuid).Nodup) (ht : ts.Perm ts')
    (hd : ds.Perm ds') : associatedPairs a ts ds = associatedPairs a ts' ds' := by
  rw [Props.associatedPairs_eq, Props.associatedPairs_eq]
  refine List.flatMap_congr ?_
  rintro ⟨u, us⟩ he
  obtain ⟨v, hv⟩ := ha _ he
  simp only at hv
  subst hv
  simp only [List.mem_singleton]
  rw [filter_uuid_perm hT ht, filter_uuid_perm hD hd]

end

/-- the table of a manager is determined by what can be seen of it -/
theorem table_of_sameView {τ S C : Type} [TrackOps τ S C] {n n' : ℕ} {m m' : Manager τ}
    {T T' : Table τ} (h : Rel n m T) (h' : Rel n' m' T') (hn : n + 1 < 2 ^ 64)
    (hn' : n' + 1 < 2 ^ 64) (hv : SameView m m') : T = T' := by
  have key : ∀ {n n' : ℕ} {m m' : Manager τ} {T T' : Table τ}, Rel n m T → Rel n' m' T' →
      n + 1 < 2 ^ 64 → n' + 1 < 2 ^ 64 → SameView m m' →
      ∀ u e, T.entry u = some e → T'.entry u = some e := by
    intro n n' m m' T T' h h' hn hn' hv u e he
    obtain ⟨ht, hu⟩ := h.hasTrack.2 ⟨e, he, rfl⟩
    obtain ⟨e', he', htr⟩ := h'.hasTrack.1 ⟨hv.all.mem_iff.1 ht, hu⟩
    have hc : e.count = e'.count := by
      rw [← h.counter_some hn he, ← h'.counter_some hn' he', hv.counters]
    have hcf : e.confirmed = true ↔ e'.confirmed = true := by
      have e1 : m.Confirmed u ↔ m'.Confirmed u := by
        obtain ⟨l, l', hl, hl', hp⟩ := hv.confirmed
        unfold Confirmed
        rw [hl, hl']
        constructor
        · rintro ⟨k, hk, x, hx, hxu⟩
          cases hk
          exact ⟨_, rfl, x, hp.mem_iff.1 hx, hxu⟩
        · rintro ⟨k, hk, x, hx, hxu⟩
          cases hk
          exact ⟨_, rfl, x, hp.mem_iff.2 hx, hxu⟩
      rw [h.confirmed, h'.confirmed] at e1
      constructor
      · intro hx
        obtain ⟨e2, h2, h3⟩ := e1.1 ⟨e, he, hx⟩
        rw [he'] at h2
        cases h2
        exact h3
      · intro hx
        obtain ⟨e2, h2, h3⟩ := e1.2 ⟨e', he', hx⟩
        rw [he] at h2
        cases h2
        exact h3
    rw [he']
    obtain ⟨t, c, b⟩ := e
    obtain ⟨t', c', b'⟩ := e'
    simp only at htr hc hcf
    rw [htr, hc, Bool.eq_iff_iff.2 hcf]
  have hv' : SameView m' m := by
    obtain ⟨l, l', hl, hl', hp⟩ := hv.confirmed
    obtain ⟨k, k', hk, hk', hq⟩ := hv.tentative
    exact ⟨hv.all.symm, ⟨l', l, hl', hl, hp.symm⟩, ⟨k', k, hk', hk, hq.symm⟩,
      fun u => (hv.occurrences u).symm, fun u => (hv.counters u).symm, hv.promo.symm,
      hv.removal.symm⟩
  have hent : T.entry = T'.entry := by
    funext u
    rcases hx : T.entry u with _ | e
    · rcases hy : T'.entry u with _ | e
      · rfl
      · rw [key h' h hn' hn hv' u e hy] at hx; cases hx
    · rw [key h h' hn hn' hv u e hx]
  have hp : T.promo = T'.promo := by rw [← h.promo, ← h'.promo, hv.promo]
  have hr : T.removal = T'.removal := by rw [← h.removal, ← h'.removal, hv.removal]
  cases T; cases T'
  simp only at hent hp hr
  rw [hent, hp, hr]

end Mot
