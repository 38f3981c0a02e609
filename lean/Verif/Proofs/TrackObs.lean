import Verif.Spec.TrackObs
import Verif.Proofs.TrackManager
/-! # Observables in terms of the specification table -/

namespace Mot.Manager
variable {τ S C : Type} [TrackOps τ S C]

omit [TrackOps τ S C] in
theorem collect_eq (st : UMap Uuid TrackStatus) (s : TrackStatus) (l : List (Uuid × τ))
    (h : ∀ u ∈ l.map (·.1), (st.find? u).isSome) :
    collect st s l = .ok ((l.filter (fun e => st.find? e.1 = some s)).map (·.2)) := by
  induction l with
  | nil => rfl
  | cons a l ih =>
    obtain ⟨u, t⟩ := a
    obtain ⟨s', hs⟩ := Option.isSome_iff_exists.1 (h u (by simp))
    have ih' := ih (fun v hv => h v (List.mem_cons_of_mem _ hv))
    simp only [collect, hs, ih', Outcome.bind]
    by_cases he : s' = s
    · simp [he, hs]
    · simp [he, hs]

section
variable {n : ℕ} {m : Manager τ} {T : Spec.Table τ} (h : Rel n m T)
include h

theorem Rel.status_isSome (u : Uuid) (hu : u ∈ m.tracks.entries.map (·.1)) :
    (m.statuses.find? u).isSome := by
  have h' : (m.tracks.find? u).isSome := UMap.find?_isSome.2 hu
  rw [h.tracks u] at h'; rw [h.statuses u]; simpa using h'

theorem Rel.confirmed_eq : m.getConfirmedTracks =
    .ok ((m.tracks.entries.filter (fun e => m.statuses.find? e.1 = some .confirmed)).map (·.2)) :=
  collect_eq _ _ _ h.status_isSome

theorem Rel.tentative_eq : m.getTentativeTracks =
    .ok ((m.tracks.entries.filter (fun e => m.statuses.find? e.1 = some .tentative)).map (·.2)) :=
  collect_eq _ _ _ h.status_isSome

theorem Rel.mem_entries {u : Uuid} {t : τ} :
    (u, t) ∈ m.tracks.entries ↔ ∃ e, T.entry u = some e ∧ e.track = t := by
  rw [← UMap.find?_eq_some, h.tracks u, Option.map_eq_some_iff]

theorem Rel.key_uuid {x : Uuid × τ} (hx : x ∈ m.tracks.entries) : TrackOps.uuid x.2 = x.1 := by
  obtain ⟨e, he, ht⟩ := h.mem_entries.1 hx
  rw [← ht]; exact h.uuid _ e he

theorem Rel.hasTrack {u : Uuid} {t : τ} :
    m.HasTrack u t ↔ ∃ e, T.entry u = some e ∧ e.track = t := by
  rw [← h.mem_entries]
  constructor
  · rintro ⟨ht, hu⟩
    obtain ⟨x, hx, rfl⟩ := List.mem_map.1 ht
    have := h.key_uuid hx
    rw [hu] at this
    rw [this]; exact hx
  · intro hx
    exact ⟨List.mem_map.2 ⟨_, hx, rfl⟩, h.key_uuid hx⟩

theorem Rel.managed {u : Uuid} : m.Managed u ↔ ∃ e, T.entry u = some e := by
  constructor
  · rintro ⟨t, ht⟩
    obtain ⟨e, he, _⟩ := h.hasTrack.1 ht
    exact ⟨e, he⟩
  · rintro ⟨e, he⟩
    exact ⟨e.track, h.hasTrack.2 ⟨e, he, rfl⟩⟩

theorem Rel.statusFilter {u : Uuid} {s : TrackStatus} :
    (∃ t ∈ (m.tracks.entries.filter (fun e => m.statuses.find? e.1 = some s)).map (·.2),
      TrackOps.uuid t = u) ↔ ∃ e, T.entry u = some e ∧ statusOf e.confirmed = s := by
  constructor
  · rintro ⟨t, ht, hu⟩
    obtain ⟨x, hx, rfl⟩ := List.mem_map.1 ht
    obtain ⟨hx, hs⟩ := List.mem_filter.1 hx
    have hk := h.key_uuid hx
    rw [hu] at hk
    rw [← hk] at hs
    simp only [decide_eq_true_eq] at hs
    rw [h.statuses u, Option.map_eq_some_iff] at hs
    exact hs
  · rintro ⟨e, he, hs⟩
    refine ⟨e.track, List.mem_map.2 ⟨(u, e.track), List.mem_filter.2 ⟨?_, ?_⟩, rfl⟩, h.uuid u e he⟩
    · exact h.mem_entries.2 ⟨e, he, rfl⟩
    · simp [h.statuses u, he, hs]

theorem Rel.confirmed {u : Uuid} :
    m.Confirmed u ↔ ∃ e, T.entry u = some e ∧ e.confirmed = true := by
  unfold Confirmed
  rw [h.confirmed_eq]
  have : ∀ b, statusOf b = .confirmed ↔ b = true := by intro b; cases b <;> simp [statusOf]
  constructor
  · rintro ⟨l, hl, hx⟩
    cases hl
    obtain ⟨e, he, hs⟩ := h.statusFilter.1 hx
    exact ⟨e, he, (this _).1 hs⟩
  · rintro ⟨e, he, hs⟩
    exact ⟨_, rfl, h.statusFilter.2 ⟨e, he, (this _).2 hs⟩⟩

theorem Rel.tentative {u : Uuid} :
    m.Tentative u ↔ ∃ e, T.entry u = some e ∧ e.confirmed = false := by
  unfold Tentative
  rw [h.tentative_eq]
  have : ∀ b, statusOf b = .tentative ↔ b = false := by intro b; cases b <;> simp [statusOf]
  constructor
  · rintro ⟨l, hl, hx⟩
    cases hl
    obtain ⟨e, he, hs⟩ := h.statusFilter.1 hx
    exact ⟨e, he, (this _).1 hs⟩
  · rintro ⟨e, he, hs⟩
    exact ⟨_, rfl, h.statusFilter.2 ⟨e, he, (this _).2 hs⟩⟩

theorem Rel.counter_some (hn : n + 1 < 2 ^ 64) {u : Uuid} {e : Spec.Entry τ}
    (he : T.entry u = some e) : m.counter u = e.count := by
  have hb := h.bound u e he
  simp only [counter, h.occ u, he, Option.map_some, BitVec.toNat_ofNat]
  exact Nat.mod_eq_of_lt (by omega)

theorem Rel.counter_none {u : Uuid} (he : T.entry u = none) : m.counter u = 0 := by
  simp only [counter, h.occ u, he, Option.map_none]

theorem Rel.occurrences_none {u : Uuid} (he : T.entry u = none) : m.getOccurrences u = 0 := by
  simp only [getOccurrences, h.occ u, he, Option.map_none]

theorem Rel.nodup : (m.getAllTracks.map TrackOps.uuid).Nodup := by
  have : m.getAllTracks.map TrackOps.uuid = m.tracks.entries.map (·.1) := by
    rw [getAllTracks, List.map_map]
    exact List.map_congr_left (fun x hx => h.key_uuid hx)
  rw [this]; exact m.tracks.nodup

end

theorem reachable_rel [LawfulTrackOps τ] {n : ℕ} {m : Manager τ} (hr : ReachableIn S C n m)
    (hn : n + 2 < 2 ^ 64) : ∃ T : Spec.Table τ, Rel n m T := by
  obtain ⟨p, r, ops, os, hr, rfl⟩ := hr
  have := rel_runs (rel_new p r) hr (by omega)
  have h := this.1
  rw [Nat.zero_add] at h
  exact ⟨_, h⟩

/-- Two managers representing the same table look the same. -/
theorem Rel.sameView {n n' : ℕ} {m m' : Manager τ} {T : Spec.Table τ} (h : Rel n m T)
    (h' : Rel n' m' T) : SameView m m' := by
  have hst : ∀ u, m.statuses.find? u = m'.statuses.find? u := fun u => by
    rw [h.statuses u, h'.statuses u]
  have hp : m.tracks.entries.Perm m'.tracks.entries := by
    refine (List.perm_ext_iff_of_nodup (List.Nodup.of_map _ m.tracks.nodup)
      (List.Nodup.of_map _ m'.tracks.nodup)).2 ?_
    rintro ⟨u, t⟩
    rw [h.mem_entries, h'.mem_entries]
  have hocc : ∀ u, m.occ.find? u = m'.occ.find? u := fun u => by rw [h.occ u, h'.occ u]
  constructor
  · exact hp.map _
  · refine ⟨_, _, h.confirmed_eq, h'.confirmed_eq, ?_⟩
    simp only [hst]
    exact (hp.filter _).map _
  · refine ⟨_, _, h.tentative_eq, h'.tentative_eq, ?_⟩
    simp only [hst]
    exact (hp.filter _).map _
  · intro u; simp only [getOccurrences, hocc]
  · intro u; simp only [counter, hocc]
  · exact BitVec.eq_of_toNat_eq (h.promo.trans h'.promo.symm)
  · exact BitVec.eq_of_toNat_eq (h.removal.trans h'.removal.symm)

end Mot.Manager
