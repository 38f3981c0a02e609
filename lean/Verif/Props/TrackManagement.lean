import Verif.Proofs.TrackObs
/-!
# Properties C01–C15: track management

All theorems are about managers reached by an arbitrary history of calls from a newly
constructed one (`ReachableIn`, `Runs`), with arbitrary re-ordering of the hash maps,
for plain tracks (`DynObj`) and variant tracks (`Obj2`) alike (`LawfulTrackOps`).
The only bound is that fewer than 2^64 - 2 updates have been made.
-/

namespace Mot.Props
open Manager
open Spec (Table)

variable {τ S C : Type} [TrackOps τ S C] [LawfulTrackOps τ]

/-! ## A concrete manager used to show that hypotheses can be met -/

/-- a sample UUID -/
def uid (n : Fin 256) : Uuid := ⟨[n]⟩

/-- a sample track -/
def trk (n : Fin 256) : DynObj ℕ ℕ := ⟨0, 7, 8, uid n, .pedestrian⟩

/-- an association map mentioning UUID `n` only -/
def assocOf (n : Fin 256) : AssociationMap := SMap.empty.set (uid n) [uid 9]

/-- add two tracks, then one update in which only the first is seen -/
def sampleOps : List (Op (DynObj ℕ ℕ) ℕ ℕ) :=
  [.add (trk 1), .add (trk 2), .update (assocOf 1)]

/-- the manager after `sampleOps`; removal threshold 0 removes the second track -/
def sample : Manager (DynObj ℕ ℕ) := run sampleOps (Manager.new 2 0)

theorem sample_reachable : ReachableIn ℕ ℕ 1 sample :=
  ⟨2, 0, sampleOps, _, runs_run _ _, rfl⟩

theorem sample_getAll : sample.getAllTracks.map (·.uuid) = [uid 1] := by decide +kernel

theorem sample_managed : sample.Managed (uid 1) := by
  have h : uid 1 ∈ sample.getAllTracks.map (·.uuid) := by rw [sample_getAll]; simp
  obtain ⟨t, ht, hu⟩ := List.mem_map.1 h
  exact ⟨t, ht, hu⟩

/-! ## C01 -/

/-- C01: all getters return normally, the two status lists together are a
rearrangement of all tracks, and no UUID occurs twice. -/
theorem C01_partition {n : ℕ} {m : Manager τ} (hr : ReachableIn S C n m)
    (hn : n + 2 < 2 ^ 64) :
    ∃ lt lc, m.getTentativeTracks = .ok lt ∧ m.getConfirmedTracks = .ok lc ∧
      (lt ++ lc).Perm m.getAllTracks ∧ (m.getAllTracks.map TrackOps.uuid).Nodup := by
  obtain ⟨T, h⟩ := reachable_rel hr hn
  refine ⟨_, _, h.tentative_eq, h.confirmed_eq, ?_, h.nodup⟩
  rw [← List.map_append, getAllTracks]
  refine List.Perm.map _ ?_
  have : m.tracks.entries.filter (fun e : Uuid × τ => m.statuses.find? e.1 = some .confirmed)
      = m.tracks.entries.filter (fun e => !decide (m.statuses.find? e.1 = some .tentative)) := by
    refine List.filter_congr ?_
    intro x hx
    obtain ⟨s, hs⟩ := Option.isSome_iff_exists.1
      (h.status_isSome x.1 (List.mem_map.2 ⟨x, hx, rfl⟩))
    rw [hs]; cases s <;> simp
  rw [this]
  exact List.filter_append_perm (fun e : Uuid × τ => decide (m.statuses.find? e.1 = some .tentative)) _

/-- C01, per UUID: a managed track is exactly one of tentative and confirmed, and
only managed tracks are either. -/
theorem C01_status_exclusive {n : ℕ} {m : Manager τ} (hr : ReachableIn S C n m)
    (hn : n + 2 < 2 ^ 64) (u : Uuid) :
    (m.Managed u ↔ m.Tentative u ∨ m.Confirmed u) ∧ ¬ (m.Tentative u ∧ m.Confirmed u) := by
  obtain ⟨T, h⟩ := reachable_rel hr hn
  rw [h.managed, h.tentative, h.confirmed]
  constructor
  · constructor
    · rintro ⟨e, he⟩
      cases hb : e.confirmed
      · exact .inl ⟨e, he, hb⟩
      · exact .inr ⟨e, he, hb⟩
    · rintro (⟨e, he, _⟩ | ⟨e, he, _⟩) <;> exact ⟨e, he⟩
  · rintro ⟨⟨e, he, hf⟩, ⟨e', he', ht⟩⟩
    rw [he] at he'; cases he'; rw [hf] at ht; cases ht

example : ∃ lt lc, sample.getTentativeTracks = .ok lt ∧ sample.getConfirmedTracks = .ok lc ∧
    (lt ++ lc).Perm sample.getAllTracks ∧
    (sample.getAllTracks.map TrackOps.uuid).Nodup ∧ sample.getAllTracks ≠ [] := by
  obtain ⟨lt, lc, h1, h2, h3, h4⟩ := C01_partition sample_reachable (by omega)
  refine ⟨lt, lc, h1, h2, h3, h4, ?_⟩
  intro h; have := sample_getAll; rw [h] at this; exact absurd this (by decide)

/-! ## C02 -/

/-- C02: every history of calls on a new manager (with arbitrary re-ordering of the
hash maps) has the outcomes prescribed by the table specification and ends in a state
whose getters return exactly what the table says. -/
theorem C02_refines_table {p r : BitVec 64} {ops : List (Op τ S C)}
    {os : List (Outcome Unit)} {m : Manager τ}
    (hr : Runs (Manager.new p r) ops os m) (hn : numUpdates ops + 2 < 2 ^ 64) :
    let T := Table.run ops (Table.new p.toNat r.toNat : Table τ)
    os = Table.outcomes ops (Table.new p.toNat r.toNat : Table τ) ∧
    m.promo.toNat = T.promo ∧ m.removal.toNat = T.removal ∧
    (∀ u t, m.HasTrack u t ↔ ∃ e, T.entry u = some e ∧ e.track = t) ∧
    (∀ u, m.Confirmed u ↔ ∃ e, T.entry u = some e ∧ e.confirmed = true) ∧
    (∀ u, m.Tentative u ↔ ∃ e, T.entry u = some e ∧ e.confirmed = false) ∧
    (∀ u, m.counter u = match T.entry u with | some e => e.count | none => 0) ∧
    (m.getAllTracks.map TrackOps.uuid).Nodup := by
  obtain ⟨h, ho⟩ := rel_runs (rel_new p r) hr (by omega)
  refine ⟨ho, h.promo, h.removal, fun u t => h.hasTrack, fun u => h.confirmed,
    fun u => h.tentative, ?_, h.nodup⟩
  intro u
  split
  · rename_i e he; exact h.counter_some (by omega) he
  · rename_i he; exact h.counter_none he

example : Runs (Manager.new 2 0) sampleOps (outcomes sampleOps (Manager.new 2 0)) sample ∧
    numUpdates sampleOps + 2 < 2 ^ 64 := ⟨runs_run _ _, by decide⟩

/-! ## C03 -/

/-- C03: counters of managed tracks lie between 1 and 1 + the number of updates made so
far (so they cannot have wrapped), unmanaged UUIDs count 0, and `get_occurrences`
reports the counter while it fits an `int`. -/
theorem C03_counter_range {n : ℕ} {m : Manager τ} (hr : ReachableIn S C n m)
    (hn : n + 2 < 2 ^ 64) (u : Uuid) :
    (m.Managed u → 1 ≤ m.counter u ∧ m.counter u ≤ n + 1) ∧
    (¬ m.Managed u → m.counter u = 0 ∧ m.getOccurrences u = 0) ∧
    (m.counter u < 2 ^ 31 → m.getOccurrences u = m.counter u) := by
  obtain ⟨T, h⟩ := reachable_rel hr hn
  refine ⟨?_, ?_, ?_⟩
  · intro hm
    obtain ⟨e, he⟩ := h.managed.1 hm
    rw [h.counter_some (by omega) he]; exact h.bound u e he
  · intro hm
    have he : T.entry u = none := by
      by_contra hne
      obtain ⟨e, he⟩ := Option.ne_none_iff_exists'.1 hne
      exact hm (h.managed.2 ⟨e, he⟩)
    exact ⟨h.counter_none he, h.occurrences_none he⟩
  · unfold counter getOccurrences
    cases m.occ.find? u with
    | none => intro _; rfl
    | some c =>
      dsimp only
      intro hc
      have hm : (c.truncate 32).toNat = c.toNat := by
        rw [BitVec.truncate_eq_setWidth, BitVec.toNat_setWidth, Nat.mod_eq_of_lt (by omega)]
      rw [BitVec.toInt_eq_toNat_cond, hm, if_pos (by omega)]

/-- C03, step form: one update changes the natural number reported for a surviving track
by exactly +1 (capped) or -1; there is no wrap-around. -/
theorem C03_no_wrap {n : ℕ} {m : Manager τ} (hr : ReachableIn S C n m)
    (hn : n + 3 < 2 ^ 64) (a : AssociationMap) (u : Uuid)
    (hs : (updateTrackLists a m).1.Managed u) :
    (updateTrackLists a m).1.counter u =
      if u ∈ a.keys then min (m.counter u + 1) m.promo.toNat else m.counter u - 1 := by
  obtain ⟨T, h⟩ := reachable_rel hr (by omega)
  obtain ⟨h', _⟩ := rel_update (S := S) (C := C) h (by omega) a
  obtain ⟨e', he'⟩ := h'.managed.1 hs
  rw [h'.counter_some (by omega) he']
  change (T.entry u).bind _ = some e' at he'
  obtain ⟨e, he, hu⟩ := Option.bind_eq_some_iff.1 he'
  rw [h.counter_some (by omega) he, h.promo]
  simp only [Table.updateEntry] at hu
  split at hu
  · cases hu
  · cases hu
    simp [Table.newCount]

example : sample.counter (uid 1) = 2 ∧ sample.getOccurrences (uid 1) = 2 ∧
    (updateTrackLists (assocOf 1) sample).1.counter (uid 1) = 2 ∧
    (updateTrackLists (assocOf 3) sample).1.counter (uid 1) = 1 := by decide +kernel

omit [LawfulTrackOps τ] in
/-- counts grow by at most one per update -/
private theorem table_count (u : Uuid) : ∀ (ops : List (Op τ S C)) (T : Table τ) (k : ℕ),
    (∀ e, T.entry u = some e → e.count ≤ k + 1) →
    ∀ e, (Table.run ops T).entry u = some e → e.count ≤ k + numUpdates ops + 1
  | [], _, _, h => h
  | op :: ops, T, k, h => by
    have hmod : ∀ (v : Uuid) (f : τ → τ × Outcome Unit) (e : Spec.Entry τ),
        (T.modifyTrack v f).1.entry u = some e → e.count ≤ k + 1 := by
      intro v f e he
      unfold Table.modifyTrack at he
      split at he
      · exact h e he
      · rename_i e' he'
        dsimp only at he
        split at he
        · rename_i hv
          cases he
          exact h e' (hv ▸ he')
        · exact h e he
    have step : ∀ e, (Table.step op T).1.entry u = some e → e.count ≤ k + op.updates + 1 := by
      intro e he
      cases op with
      | add t =>
        simp only [Table.step] at he
        split at he
        · exact (h e he).trans (by omega)
        · dsimp only at he
          split at he
          · cases he
            simp
          · exact (h e he).trans (by omega)
      | update a =>
        change (T.entry u).bind _ = some e at he
        obtain ⟨e', he', hu⟩ := Option.bind_eq_some_iff.1 he
        have := h e' he'
        simp only [Table.updateEntry] at hu
        split at hu
        · cases hu
        · cases hu
          simp only [Table.newCount, Op.updates]
          split <;> omega
      | setPromotion p =>
        change (T.entry u).map _ = some e at he
        obtain ⟨e', he', rfl⟩ := Option.map_eq_some_iff.1 he
        exact (h e' he').trans (by omega)
      | setRemoval r =>
        change (T.entry u).bind _ = some e at he
        obtain ⟨e', he', hu⟩ := Option.bind_eq_some_iff.1 he
        split at hu
        · cases hu
        · cases hu
          exact (h e he').trans (by omega)
      | updateTrack v ts s c => exact (hmod v _ e he).trans (by omega)
      | updateTrackFrom v src => exact (hmod v _ e he).trans (by omega)
    intro e he
    have := table_count u ops (Table.step op T).1 (k + op.updates) step e he
    have hs : numUpdates (op :: ops) = op.updates + numUpdates ops := rfl
    omega

/-- C03: the count is at most one more than the number of updates since a moment at which the
track was not managed, in particular since it was added. -/
theorem C03_since_added {n : ℕ} {m m' : Manager τ} (hr : ReachableIn S C n m) {u : Uuid}
    (hu : ¬ m.Managed u) {ops : List (Op τ S C)} {os : List (Outcome Unit)} (hrun : Runs m ops os m')
    (hn : n + numUpdates ops + 2 < 2 ^ 64) : m'.counter u ≤ numUpdates ops + 1 := by
  obtain ⟨T, h⟩ := reachable_rel hr (by omega)
  obtain ⟨h', -⟩ := rel_runs h hrun hn
  rcases he : (T.run ops).entry u with _ | e
  · rw [h'.counter_none he]
    omega
  · rw [h'.counter_some (by omega) he]
    have := table_count u ops T 0 (fun e he => absurd (h.managed.2 ⟨e, he⟩) hu) e he
    omega

/-- add a second track, two updates: its count has reached the bound -/
example : ¬ sample.Managed (uid 2) ∧
    (run [.add (trk 2), .setPromotion 5, .update (assocOf 2), .update (assocOf 2)] sample).counter (uid 2) = 3 ∧
    numUpdates ([.add (trk 2), .setPromotion 5, .update (assocOf 2), .update (assocOf 2)] :
      List (Op (DynObj ℕ ℕ) ℕ ℕ)) = 2 := by
  refine ⟨?_, by decide +kernel, rfl⟩
  rintro ⟨t, ht, hu⟩
  have : uid 2 ∈ sample.getAllTracks.map (·.uuid) := List.mem_map.2 ⟨t, ht, hu⟩
  rw [sample_getAll] at this
  revert this
  decide

/-! ## C04 -/

/-- C04: an update succeeds, keeps exactly the tracks whose new count exceeds the
removal threshold, invents none and does not alter survivors. -/
theorem C04_removal {n : ℕ} {m : Manager τ} (hr : ReachableIn S C n m)
    (hn : n + 3 < 2 ^ 64) (a : AssociationMap) :
    (updateTrackLists a m).2 = .ok () ∧
    ∀ u t, (updateTrackLists a m).1.HasTrack u t ↔
      m.HasTrack u t ∧ m.removal.toNat <
        (if u ∈ a.keys then min (m.counter u + 1) m.promo.toNat else m.counter u - 1) := by
  obtain ⟨T, h⟩ := reachable_rel hr (by omega)
  obtain ⟨h', ho⟩ := rel_update (S := S) (C := C) h (by omega) a
  refine ⟨ho, ?_⟩
  intro u t
  rw [h'.hasTrack, h.hasTrack]
  show (∃ e : Spec.Entry τ, (T.entry u).bind _ = some e ∧ e.track = t) ↔ _
  cases hu : T.entry u with
  | none => simp
  | some e =>
    rw [h.counter_some (by omega) hu, h.promo, h.removal]
    simp only [Option.bind_some, Table.updateEntry, Table.newCount, decide_eq_true_eq]
    by_cases hle : (if u ∈ a.keys then min (e.count + 1) T.promo else e.count - 1) ≤ T.removal
    · rw [if_pos hle]
      constructor
      · rintro ⟨_, h, _⟩; cases h
      · rintro ⟨_, h⟩; omega
    · rw [if_neg hle]
      constructor
      · rintro ⟨_, h, rfl⟩; cases h; exact ⟨⟨e, rfl, rfl⟩, by omega⟩
      · rintro ⟨⟨e0, h, rfl⟩, _⟩; cases h; exact ⟨_, rfl, rfl⟩

example : (updateTrackLists (assocOf 3) sample).1.Managed (uid 1) ∧
    ¬ (updateTrackLists (assocOf 3) (updateTrackLists (assocOf 3) sample).1).1.Managed (uid 1) := by
  constructor
  · have h : uid 1 ∈ (updateTrackLists (assocOf 3) sample).1.getAllTracks.map (·.uuid) := by
      decide +kernel
    obtain ⟨t, ht, hu⟩ := List.mem_map.1 h
    exact ⟨t, ht, hu⟩
  · rintro ⟨t, ht, hu⟩
    have h : uid 1 ∉ (updateTrackLists (assocOf 3)
      (updateTrackLists (assocOf 3) sample).1).1.getAllTracks.map (·.uuid) := by decide +kernel
    exact h (List.mem_map.2 ⟨t, ht, hu⟩)

/-! ## C05 -/

omit [LawfulTrackOps τ] in
/-- The entry of a track associated in a run of updates. -/
private theorem run_seen (u : Uuid) (as : List AssociationMap) (hk : ∀ a ∈ as, u ∈ a.keys)
    (T : Table τ) (e : Spec.Entry τ) (he : T.entry u = some e)
    (hR : T.removal < min (e.count + 1) T.promo) :
    let T' := Table.run (as.map (fun a => (.update a : Op τ S C))) T
    T'.promo = T.promo ∧
    ∃ e', T'.entry u = some e' ∧ e'.track = e.track ∧
      (as ≠ [] → e'.count = min (e.count + as.length) T.promo) ∧
      (as ≠ [] → (e'.confirmed = true ↔ e.confirmed = true ∨ T.promo ≤ e.count + as.length)) ∧
      (as = [] → e' = e) := by
  induction as generalizing T e with
  | nil => exact ⟨rfl, e, he, rfl, by simp, by simp, fun _ => rfl⟩
  | cons a as ih =>
    have ha : u ∈ a.keys := hk a (by simp)
    have hc : Table.newCount T.promo (decide (u ∈ a.keys)) e.count = min (e.count + 1) T.promo := by
      simp [Table.newCount, ha]
    have he1 : (T.step (.update a : Op τ S C)).1.entry u =
        some ⟨e.track, min (e.count + 1) T.promo,
          e.confirmed || decide (T.promo ≤ min (e.count + 1) T.promo)⟩ := by
      simp only [Table.step, he, Option.bind_some, Table.updateEntry, hc]
      rw [if_neg (by omega)]
    obtain ⟨hp, e', h1, h2, h3, h4, h5⟩ := ih (fun b hb => hk b (List.mem_cons_of_mem _ hb))
      (T.step (.update a : Op τ S C)).1 _ he1 (by
        show T.removal < min (min (e.count + 1) T.promo + 1) T.promo; omega)
    refine ⟨hp, e', h1, h2, ?_, ?_, by simp⟩
    · intro _
      by_cases hn : as = []
      · subst hn; rw [h5 rfl]; simp
      · rw [h3 hn]
        show min (min (e.count + 1) T.promo + as.length) T.promo = _
        rw [List.length_cons]
        omega
    · intro _
      by_cases hn : as = []
      · subst hn; rw [h5 rfl]; simp
      · rw [h4 hn]
        show (e.confirmed || decide (T.promo ≤ min (e.count + 1) T.promo)) = true ∨
          T.promo ≤ min (e.count + 1) T.promo + as.length ↔ _
        rw [List.length_cons, Bool.or_eq_true, decide_eq_true_eq]
        have : 1 ≤ as.length := List.length_pos_iff.2 hn
        constructor
        · rintro ((h | h) | h)
          · exact .inl h
          · right; omega
          · right; omega
        · rintro (h | h)
          · exact .inl (.inl h)
          · right; omega

omit [TrackOps τ S C] [LawfulTrackOps τ] in
private theorem numUpdates_map (as : List AssociationMap) :
    numUpdates (as.map (fun a => (.update a : Op τ S C))) = as.length := by
  induction as with
  | nil => rfl
  | cons a as ih =>
    simp only [List.map_cons, numUpdates, ih, Op.updates, List.length_cons]; omega

/-- C05: a new track associated in each of the next `k ≥ 1` updates is still managed,
unaltered, has count `min (1+k) promotion`, is confirmed iff `promotion ≤ 1+k` and
tentative otherwise.  Adding succeeds exactly because the UUID was not managed. -/
theorem C05_promotion_timing {n : ℕ} {m m' : Manager τ} (hr : ReachableIn S C n m)
    (t : τ) (hnew : ¬ m.Managed (TrackOps.uuid t)) (as : List AssociationMap) (hne : as ≠ [])
    (hk : ∀ a ∈ as, TrackOps.uuid t ∈ a.keys)
    (hR : m.removal.toNat < min 2 m.promo.toNat)
    (hn : n + as.length + 2 < 2 ^ 64) {os : List (Outcome Unit)}
    (hrun : Runs m (.add t :: as.map (fun a => (.update a : Op τ S C))) os m') :
    m'.HasTrack (TrackOps.uuid t) t ∧
    m'.counter (TrackOps.uuid t) = min (1 + as.length) m.promo.toNat ∧
    (m'.Confirmed (TrackOps.uuid t) ↔ m.promo.toNat ≤ 1 + as.length) ∧
    (m'.Tentative (TrackOps.uuid t) ↔ 1 + as.length < m.promo.toNat) := by
  obtain ⟨T, h⟩ := reachable_rel hr (by omega)
  have hnu : numUpdates (.add t :: as.map (fun a => (.update a : Op τ S C))) = as.length := by
    simp only [numUpdates, numUpdates_map, Op.updates]; omega
  obtain ⟨h', _⟩ := rel_runs h hrun (by rw [hnu]; omega)
  have hT : T.entry (TrackOps.uuid t) = none := by
    by_contra hne
    obtain ⟨e, he⟩ := Option.ne_none_iff_exists'.1 hne
    exact hnew (h.managed.2 ⟨e, he⟩)
  have h1 : (T.step (.add t : Op τ S C)).1 =
      { T with entry := fun v => if v = TrackOps.uuid t then some ⟨t, 1, false⟩ else T.entry v } := by
    simp only [Table.step, hT]
  obtain ⟨_, e', he', ht, hc, hcf, _⟩ := run_seen (S := S) (C := C) (TrackOps.uuid t) as hk
    (T.step (.add t : Op τ S C)).1 ⟨t, 1, false⟩ (by rw [h1]; simp)
    (by rw [h1]; dsimp only; rw [← h.promo, ← h.removal]; exact hR)
  have hpr : (T.step (.add t : Op τ S C)).1.promo = m.promo.toNat := by rw [h1]; exact h.promo.symm
  rw [hpr] at hc hcf
  have he'' : (T.run (.add t :: as.map (fun a => (.update a : Op τ S C)))).entry
      (TrackOps.uuid t) = some e' := he'
  refine ⟨h'.hasTrack.2 ⟨e', he'', ht⟩, ?_, ?_, ?_⟩
  · exact (h'.counter_some (by rw [hnu]; omega) he'').trans (hc hne)
  · rw [h'.confirmed]
    constructor
    · rintro ⟨e2, he2, hb⟩
      rw [he''] at he2; cases he2
      simpa using (hcf hne).1 hb
    · intro hle
      exact ⟨e', he'', (hcf hne).2 (.inr hle)⟩
  · rw [h'.tentative]
    constructor
    · rintro ⟨e2, he2, hb⟩
      rw [he''] at he2; cases he2
      by_contra hlt
      rw [(hcf hne).2 (.inr (by show _ ≤ 1 + as.length; omega))] at hb; cases hb
    · intro hlt
      refine ⟨e', he'', ?_⟩
      cases hb : e'.confirmed
      · rfl
      · rcases (hcf hne).1 hb with h0 | h0
        · cases h0
        · dsimp only at h0; omega

example : ∃ (m' : Manager (DynObj ℕ ℕ)) (os : List (Outcome Unit)),
    Runs sample (.add (trk 5) :: [assocOf 5, assocOf 5].map
      (fun a => (.update a : Op (DynObj ℕ ℕ) ℕ ℕ))) os m' ∧
    ¬ sample.Managed (uid 5) ∧ sample.removal.toNat < min 2 sample.promo.toNat ∧
    (∀ a ∈ [assocOf 5, assocOf 5], uid 5 ∈ a.keys) := by
  refine ⟨_, _, runs_run _ _, ?_, by decide +kernel, by decide +kernel⟩
  rintro ⟨t, ht, hu⟩
  have h : uid 5 ∉ sample.getAllTracks.map (·.uuid) := by decide +kernel
  exact h (List.mem_map.2 ⟨t, ht, hu⟩)

/-! ## C06 -/

/-- C06: no call except `set_promotion_threshold_and_update` turns a confirmed track
into a tentative one. -/
theorem C06_no_demotion {n : ℕ} {m : Manager τ} (hr : ReachableIn S C n m)
    (hn : n + 3 < 2 ^ 64) (op : Op τ S C) (hop : ∀ p, op ≠ .setPromotion p) (u : Uuid)
    (hc : m.Confirmed u) :
    (step op m).1.Confirmed u ∨ ¬ (step op m).1.Managed u := by
  obtain ⟨T, h⟩ := reachable_rel hr (by omega)
  obtain ⟨h', _⟩ := rel_step h (by omega) op
  obtain ⟨e, he, hb⟩ := h.confirmed.1 hc
  by_cases hm : (step op m).1.Managed u
  · left
    obtain ⟨e', he'⟩ := h'.managed.1 hm
    refine h'.confirmed.2 ⟨e', he', ?_⟩
    cases op with
    | add t =>
      simp only [Table.step] at he'
      split at he'
      · rw [he] at he'; cases he'; exact hb
      · rename_i hnone
        simp only at he'
        split at he'
        · rename_i hu; rw [← hu, he] at hnone; cases hnone
        · rw [he] at he'; cases he'; exact hb
    | update a =>
      simp only [Table.step, he, Option.bind_some, Table.updateEntry] at he'
      split at he'
      · cases he'
      · cases he'; simp [hb]
    | setPromotion p => exact absurd rfl (hop p)
    | setRemoval r =>
      simp only [Table.step, he, Option.bind_some] at he'
      split at he'
      · cases he'
      · cases he'; exact hb
    | updateTrack v ts s c =>
      simp only [Table.step, Table.modifyTrack] at he'
      split at he'
      · rw [he] at he'; cases he'; exact hb
      · rename_i e0 he0
        simp only at he'
        split at he'
        · rename_i hv
          subst hv; rw [he] at he0; cases he0; cases he'; exact hb
        · rw [he] at he'; cases he'; exact hb
    | updateTrackFrom v t =>
      simp only [Table.step, Table.modifyTrack] at he'
      split at he'
      · rw [he] at he'; cases he'; exact hb
      · rename_i e0 he0
        simp only at he'
        split at he'
        · rename_i hv
          subst hv; rw [he] at he0; cases he0; cases he'; exact hb
        · rw [he] at he'; cases he'; exact hb
  · exact .inr hm

theorem sample_confirmed : sample.Confirmed (uid 1) := by
  obtain ⟨T, h⟩ := reachable_rel sample_reachable (by omega)
  rw [Confirmed, h.confirmed_eq]
  refine ⟨_, rfl, ?_⟩
  have h : uid 1 ∈ (((sample.tracks.entries.filter
    (fun e => sample.statuses.find? e.1 = some .confirmed)).map (·.2)).map (·.uuid)) := by
    decide +kernel
  obtain ⟨t, ht, hu⟩ := List.mem_map.1 h
  exact ⟨t, ht, hu⟩

example : sample.Confirmed (uid 1) ∧ (step (.update (assocOf 3)) sample).1.Confirmed (uid 1) := by
  refine ⟨sample_confirmed, ?_⟩
  rcases C06_no_demotion sample_reachable (by omega) (.update (assocOf 3)) (by simp) (uid 1)
    sample_confirmed with h | h
  · exact h
  · exfalso
    apply h
    have h : uid 1 ∈ (updateTrackLists (assocOf 3) sample).1.getAllTracks.map (·.uuid) := by
      decide +kernel
    obtain ⟨t, ht, hu⟩ := List.mem_map.1 h
    exact ⟨t, ht, hu⟩

/-! ## C07 -/

omit [LawfulTrackOps τ] in
private theorem run_unseen (u : Uuid) (as : List AssociationMap) (hk : ∀ a ∈ as, u ∉ a.keys)
    (T : Table τ) :
    let T' := Table.run (as.map (fun a => (.update a : Op τ S C))) T
    (T.entry u = none → T'.entry u = none) ∧
    (∀ e, T.entry u = some e →
      ((∃ e', T'.entry u = some e') ↔ as = [] ∨ as.length + T.removal < e.count) ∧
      (∀ e', T'.entry u = some e' → e'.count = e.count - as.length)) := by
  induction as generalizing T with
  | nil =>
    refine ⟨fun h => h, fun e he => ⟨⟨fun _ => .inl rfl, fun _ => ⟨e, he⟩⟩, ?_⟩⟩
    intro e' he'
    change T.entry u = some e' at he'
    rw [he] at he'; cases he'; simp
  | cons a as ih =>
    have ha : u ∉ a.keys := hk a (by simp)
    obtain ⟨i1, i2⟩ := ih (fun b hb => hk b (List.mem_cons_of_mem _ hb))
      (T.step (.update a : Op τ S C)).1
    refine ⟨?_, ?_⟩
    · intro hN
      apply i1
      simp only [Table.step, hN, Option.bind_none]
    · intro e he
      have hstep : (T.step (.update a : Op τ S C)).1.entry u =
          if e.count - 1 ≤ T.removal then none
          else some ⟨e.track, e.count - 1, e.confirmed || decide (T.promo ≤ e.count - 1)⟩ := by
        simp only [Table.step, he, Option.bind_some, Table.updateEntry, Table.newCount, ha,
          decide_false, Bool.false_eq_true, if_false]
      by_cases hle : e.count - 1 ≤ T.removal
      · rw [if_pos hle] at hstep
        have hN := i1 hstep
        have hN' : (Table.run ((a :: as).map (fun a => (.update a : Op τ S C))) T).entry u = none := hN
        refine ⟨?_, ?_⟩
        · rw [hN']
          simp only [reduceCtorEq, exists_false, List.length_cons, false_or, false_iff]
          omega
        · intro e' he'; rw [hN'] at he'; cases he'
      · rw [if_neg hle] at hstep
        obtain ⟨j1, j2⟩ := i2 _ hstep
        refine ⟨?_, ?_⟩
        · refine Iff.trans j1 ?_
          show as = [] ∨ as.length + T.removal < e.count - 1 ↔ _
          simp only [reduceCtorEq, List.length_cons, false_or]
          constructor
          · rintro (h | h)
            · subst h; simp; omega
            · omega
          · intro h; right; omega
        · intro e' he'
          have := j2 e' he'
          rw [this]
          show e.count - 1 - as.length = _
          rw [List.length_cons]; omega

/-- C07: a managed track that is not associated in a run of updates is still managed
after them iff there were none, or the number of updates plus the removal threshold is
smaller than its count at the start; its count has then dropped by that number. -/
theorem C07_forgetting {n : ℕ} {m m' : Manager τ} (hr : ReachableIn S C n m) (u : Uuid)
    (hm : m.Managed u) (as : List AssociationMap) (hk : ∀ a ∈ as, u ∉ a.keys)
    (hn : n + as.length + 2 < 2 ^ 64) {os : List (Outcome Unit)}
    (hrun : Runs m (as.map (fun a => (.update a : Op τ S C))) os m') :
    (m'.Managed u ↔ as = [] ∨ as.length + m.removal.toNat < m.counter u) ∧
    (m'.Managed u → m'.counter u = m.counter u - as.length) := by
  obtain ⟨T, h⟩ := reachable_rel hr (by omega)
  obtain ⟨h', _⟩ := rel_runs h hrun (by rw [numUpdates_map]; omega)
  obtain ⟨e, he⟩ := h.managed.1 hm
  obtain ⟨_, h2⟩ := run_unseen (S := S) (C := C) u as hk T
  obtain ⟨h3, h4⟩ := h2 e he
  rw [h'.managed, h.removal, h.counter_some (by omega) he]
  refine ⟨h3, ?_⟩
  rintro ⟨e', he'⟩
  rw [h'.counter_some (by rw [numUpdates_map]; omega) he']
  exact h4 e' he'

/-- C07, consequence: no track is kept forever without being seen. -/
theorem C07_eventually_removed {n : ℕ} {m m' : Manager τ} (hr : ReachableIn S C n m) (u : Uuid)
    (as : List AssociationMap) (hk : ∀ a ∈ as, u ∉ a.keys) (hm : m.Managed u)
    (hn : n + as.length + 2 < 2 ^ 64) (hlen : n + 1 ≤ as.length) {os : List (Outcome Unit)}
    (hrun : Runs m (as.map (fun a => (.update a : Op τ S C))) os m') :
    ¬ m'.Managed u := by
  intro hm'
  have h1 := (C07_forgetting hr u hm as hk hn hrun).1.1 hm'
  have h2 := ((C03_counter_range hr (by omega) u).1 hm).2
  rcases h1 with h | h
  · subst h; simp at hlen
  · omega

example : sample.Managed (uid 1) ∧ sample.counter (uid 1) = 2 ∧
    (∀ a ∈ [assocOf 3, assocOf 4], uid 1 ∉ a.keys) ∧
    ∃ os m', Runs sample ([assocOf 3, assocOf 4].map
      (fun a => (.update a : Op (DynObj ℕ ℕ) ℕ ℕ))) os m' :=
  ⟨sample_managed, by decide +kernel, by decide +kernel, _, _, runs_run _ _⟩

/-! ## C08 -/

/-- C08: adding throws `std::logic_error` iff the UUID is already managed, without
effect; otherwise exactly one tentative track with count 1 is added. -/
theorem C08_add {n : ℕ} {m : Manager τ} (hr : ReachableIn S C n m) (hn : n + 3 < 2 ^ 64)
    (t : τ) :
    (m.Managed (TrackOps.uuid t) → addTentativeTrack t m = (m, .throw .logicError)) ∧
    (¬ m.Managed (TrackOps.uuid t) →
      (addTentativeTrack t m).2 = .ok () ∧
      (let m' := (addTentativeTrack t m).1
       m'.promo = m.promo ∧ m'.removal = m.removal ∧
       m'.Tentative (TrackOps.uuid t) ∧ m'.counter (TrackOps.uuid t) = 1 ∧
       (∀ u s, m'.HasTrack u s ↔ (u = TrackOps.uuid t ∧ s = t) ∨ m.HasTrack u s) ∧
       (∀ u, u ≠ TrackOps.uuid t → (m'.Confirmed u ↔ m.Confirmed u) ∧
         (m'.Tentative u ↔ m.Tentative u) ∧ m'.counter u = m.counter u ∧
         m'.getOccurrences u = m.getOccurrences u))) := by
  obtain ⟨T, h⟩ := reachable_rel hr (by omega)
  obtain ⟨h', ho⟩ := rel_add (S := S) (C := C) h t
  constructor
  · intro hm
    obtain ⟨e, he⟩ := h.managed.1 hm
    have hc : m.tracks.count (TrackOps.uuid t) ≠ 0 := by
      rw [Ne, UMap.count_eq_zero, h.tracks, he]; simp
    simp only [addTentativeTrack, if_pos hc]
  · intro hm
    have hT : T.entry (TrackOps.uuid t) = none := by
      by_contra hne
      obtain ⟨e, he⟩ := Option.ne_none_iff_exists'.1 hne
      exact hm (h.managed.2 ⟨e, he⟩)
    have hc : m.tracks.count (TrackOps.uuid t) = 0 := by
      rw [UMap.count_eq_zero, h.tracks, hT]; rfl
    have hent : ∀ u, (T.step (.add t : Op τ S C)).1.entry u =
        if u = TrackOps.uuid t then some ⟨t, 1, false⟩ else T.entry u := by
      intro u; simp only [Table.step, hT]
    refine ⟨?_, ?_, ?_, ?_, ?_, ?_, ?_⟩
    · rw [ho]; simp only [Table.step, hT]
    · simp [addTentativeTrack, hc]
    · simp [addTentativeTrack, hc]
    · exact h'.tentative.2 ⟨⟨t, 1, false⟩, by rw [hent]; simp, rfl⟩
    · exact h'.counter_some (e := ⟨t, 1, false⟩) (by omega) (by rw [hent]; simp)
    · intro u s
      rw [h'.hasTrack, h.hasTrack, hent]
      by_cases hu : u = TrackOps.uuid t
      · subst hu; simp [hT, eq_comm]
      · simp [hu]
    · intro u hu
      have hent' : (T.step (.add t : Op τ S C)).1.entry u = T.entry u := by
        rw [hent, if_neg hu]
      refine ⟨?_, ?_, ?_, ?_⟩
      · rw [h'.confirmed, h.confirmed, hent']
      · rw [h'.tentative, h.tentative, hent']
      · simp only [counter, h'.occ u, h.occ u, hent']
      · simp only [getOccurrences, h'.occ u, h.occ u, hent']

example : sample.Managed (uid 1) ∧ addTentativeTrack (trk 1) sample = (sample, .throw .logicError) :=
  ⟨sample_managed, (C08_add sample_reachable (by omega) (trk 1)).1 sample_managed⟩

/-! ## C09 -/

/-- C09: after changing the promotion threshold a managed track is confirmed iff its
count reaches the new threshold; tracks, data and counts are the same. -/
theorem C09_set_promotion {n : ℕ} {m : Manager τ} (hr : ReachableIn S C n m)
    (hn : n + 3 < 2 ^ 64) (p : BitVec 64) :
    (m.setPromotion p).promo = p ∧ (m.setPromotion p).removal = m.removal ∧
    (∀ u t, (m.setPromotion p).HasTrack u t ↔ m.HasTrack u t) ∧
    (∀ u, (m.setPromotion p).counter u = m.counter u) ∧
    (∀ u, (m.setPromotion p).Confirmed u ↔ m.Managed u ∧ p.toNat ≤ m.counter u) ∧
    (∀ u, (m.setPromotion p).Tentative u ↔ m.Managed u ∧ m.counter u < p.toNat) := by
  obtain ⟨T, h⟩ := reachable_rel hr (by omega)
  have h' := rel_setPromotion (S := S) (C := C) h (by omega) p
  have hent : ∀ u, (T.step (.setPromotion p : Op τ S C)).1.entry u =
      (T.entry u).map fun e => { e with confirmed := decide (p.toNat ≤ e.count) } := fun _ => rfl
  refine ⟨?_, ?_, ?_, ?_, ?_, ?_⟩
  · exact BitVec.eq_of_toNat_eq h'.promo
  · exact BitVec.eq_of_toNat_eq (h'.removal.trans h.removal.symm)
  · intro u t
    rw [h'.hasTrack, h.hasTrack, hent]
    cases T.entry u <;> simp
  · intro u
    simp only [counter, h'.occ u, h.occ u, hent, Option.map_map]; rfl
  · intro u
    rw [h'.confirmed, h.managed, hent]
    cases hu : T.entry u with
    | none => simp
    | some e => rw [h.counter_some (by omega) hu]; simp
  · intro u
    rw [h'.tentative, h.managed, hent]
    cases hu : T.entry u with
    | none => simp
    | some e => rw [h.counter_some (by omega) hu]; simp

example : (sample.setPromotion 3).Tentative (uid 1) :=
  ((C09_set_promotion sample_reachable (by omega) 3).2.2.2.2.2 (uid 1)).2
    ⟨sample_managed, by decide +kernel⟩

/-! ## C10 -/

/-- C10: after changing the removal threshold exactly the tracks with a larger count
remain, with data, status and count unchanged. -/
theorem C10_set_removal {n : ℕ} {m : Manager τ} (hr : ReachableIn S C n m)
    (hn : n + 3 < 2 ^ 64) (r : BitVec 64) :
    (m.setRemoval r).removal = r ∧ (m.setRemoval r).promo = m.promo ∧
    (∀ u t, (m.setRemoval r).HasTrack u t ↔ m.HasTrack u t ∧ r.toNat < m.counter u) ∧
    (∀ u, (m.setRemoval r).Confirmed u ↔ m.Confirmed u ∧ r.toNat < m.counter u) ∧
    (∀ u, (m.setRemoval r).Tentative u ↔ m.Tentative u ∧ r.toNat < m.counter u) ∧
    (∀ u, (m.setRemoval r).Managed u → (m.setRemoval r).counter u = m.counter u) := by
  obtain ⟨T, h⟩ := reachable_rel hr (by omega)
  have h' := rel_setRemoval (S := S) (C := C) h (by omega) r
  have hent : ∀ u, (T.step (.setRemoval r : Op τ S C)).1.entry u =
      (T.entry u).bind fun e => if e.count ≤ r.toNat then none else some e := fun _ => rfl
  have key : ∀ (u : Uuid) (P : Spec.Entry τ → Prop),
      (∃ e, (T.step (.setRemoval r : Op τ S C)).1.entry u = some e ∧ P e) ↔
      (∃ e, T.entry u = some e ∧ P e) ∧ r.toNat < m.counter u := by
    intro u P
    rw [hent]
    cases hu : T.entry u with
    | none => simp
    | some e =>
      rw [h.counter_some (by omega) hu]
      simp only [Option.bind_some, Option.some.injEq, exists_eq_left']
      split
      · rename_i hle; simp; intro _; exact hle
      · rename_i hle; simp; intro _; omega
  refine ⟨BitVec.eq_of_toNat_eq h'.removal, BitVec.eq_of_toNat_eq (h'.promo.trans h.promo.symm),
    ?_, ?_, ?_, ?_⟩
  · intro u t; rw [h'.hasTrack, h.hasTrack]; exact key u _
  · intro u; rw [h'.confirmed, h.confirmed]; exact key u _
  · intro u; rw [h'.tentative, h.tentative]; exact key u _
  · intro u hu
    obtain ⟨e', he'⟩ := h'.managed.1 hu
    rw [h'.counter_some (by omega) he']
    rw [hent] at he'
    obtain ⟨e, he, hi⟩ := Option.bind_eq_some_iff.1 he'
    split at hi
    · cases hi
    · cases hi; exact (h.counter_some (by omega) he).symm

example : (sample.setRemoval 1).Confirmed (uid 1) ∧ ¬ (sample.setRemoval 2).Managed (uid 1) := by
  have hc : sample.counter (uid 1) = 2 := by decide +kernel
  refine ⟨((C10_set_removal sample_reachable (by omega) 1).2.2.2.1 (uid 1)).2
    ⟨sample_confirmed, by rw [hc]; decide⟩, ?_⟩
  rintro ⟨t, ht⟩
  have := (((C10_set_removal sample_reachable (by omega) 2).2.2.1 (uid 1) t).1 ht).2
  rw [hc] at this
  exact absurd this (by decide)

/-! ## C11 -/

/-- C11: with a promotion threshold not above the removal threshold every associated
track is removed by the update, and an update never confirms a track. -/
theorem C11_misconfigured {n : ℕ} {m : Manager τ} (hr : ReachableIn S C n m)
    (hn : n + 3 < 2 ^ 64) (hpr : m.promo.toNat ≤ m.removal.toNat) (a : AssociationMap) (u : Uuid) :
    (u ∈ a.keys → ¬ (updateTrackLists a m).1.Managed u) ∧
    ((updateTrackLists a m).1.Confirmed u → m.Confirmed u) := by
  obtain ⟨T, h⟩ := reachable_rel hr (by omega)
  obtain ⟨h', ho⟩ := rel_update (S := S) (C := C) h (by omega) a
  rw [h.promo, h.removal] at hpr
  have hent : ∀ u, (T.step (.update a : Op τ S C)).1.entry u = (T.entry u).bind
    (Table.updateEntry T.promo T.removal (decide (u ∈ a.keys))) := fun _ => rfl
  constructor
  · intro hk hm
    obtain ⟨e', he'⟩ := h'.managed.1 hm
    rw [hent] at he'
    obtain ⟨e, he, hi⟩ := Option.bind_eq_some_iff.1 he'
    simp only [Table.updateEntry, Table.newCount, hk, decide_true, if_true] at hi
    rw [if_pos (by omega)] at hi; cases hi
  · intro hc
    obtain ⟨e', he', hb⟩ := h'.confirmed.1 hc
    rw [hent] at he'
    obtain ⟨e, he, hi⟩ := Option.bind_eq_some_iff.1 he'
    refine h.confirmed.2 ⟨e, he, ?_⟩
    simp only [Table.updateEntry] at hi
    split at hi
    · cases hi
    · rename_i hgt
      cases hi
      cases hcf : e.confirmed with
      | true => rfl
      | false =>
        exfalso
        have ht := h.tent u e he hcf
        unfold Table.newCount at hgt
        split at hgt <;> omega

example : ∃ m : Manager (DynObj ℕ ℕ), ReachableIn ℕ ℕ 1 m ∧ m.promo.toNat ≤ m.removal.toNat ∧
    m.Managed (uid 1) := by
  refine ⟨run [.add (trk 1), .update (assocOf 1), .setPromotion 1, .setRemoval 1]
    (Manager.new 2 0), ⟨2, 0, _, _, runs_run _ _, rfl⟩, by decide +kernel, ?_⟩
  have h : uid 1 ∈ (run [.add (trk 1), .update (assocOf 1), .setPromotion 1, .setRemoval 1]
    (Manager.new 2 0 : Manager (DynObj ℕ ℕ))).getAllTracks.map (·.uuid) := by decide +kernel
  obtain ⟨t, ht, hu⟩ := List.mem_map.1 h
  exact ⟨t, ht, hu⟩

/-! ## C12 -/

/-- The parts of a plain track that `update_track` may change. -/
def withEstimate {S C : Type} (t : DynObj S C) (ts : ℝ) (s : S) (c : C) : DynObj S C :=
  ⟨ts, s, c, t.uuid, t.semanticClass⟩

/-- Same for a variant track; `none` when the motion models do not match. -/
def withEstimate2 {S₁ C₁ S₂ C₂ : Type} : Obj2 S₁ C₁ S₂ C₂ → ℝ → S₁ ⊕ S₂ → C₁ ⊕ C₂ →
    Option (Obj2 S₁ C₁ S₂ C₂)
  | .inl t, ts, .inl s, .inl c => some (.inl (withEstimate t ts s c))
  | .inr t, ts, .inr s, .inr c => some (.inr (withEstimate t ts s c))
  | _, _, _, _ => none

omit [LawfulTrackOps τ] in
private theorem modify_view {n : ℕ} {m : Manager τ} {T : Table τ} (h : Rel n m T)
    (u : Uuid) (f : τ → τ × Outcome Unit) (hf : ∀ t, TrackOps.uuid (f t).1 = TrackOps.uuid t) :
    let m' := (withTrack u f m).1
    (¬ m.Managed u → withTrack u f m = (m, .throw .outOfRange)) ∧
    (∀ t, m.HasTrack u t → m'.HasTrack u (f t).1 ∧ (withTrack u f m).2 = (f t).2) ∧
    (∀ v, v ≠ u → ∀ s, m'.HasTrack v s ↔ m.HasTrack v s) ∧
    (∀ v, (m'.Managed v ↔ m.Managed v) ∧ (m'.Confirmed v ↔ m.Confirmed v) ∧
      (m'.Tentative v ↔ m.Tentative v) ∧ m'.counter v = m.counter v ∧
      m'.getOccurrences v = m.getOccurrences v) ∧
    m'.promo = m.promo ∧ m'.removal = m.removal := by
  obtain ⟨h', ho⟩ := rel_withTrack h u f hf
  have hent : ∀ v, (T.modifyTrack u f).1.entry v = if v = u then
      (T.entry u).map (fun e => { e with track := (f e.track).1 }) else T.entry v := by
    intro v
    unfold Table.modifyTrack
    cases hu : T.entry u with
    | none =>
      by_cases hv : v = u
      · subst hv; simp [hu]
      · simp [hv]
    | some e =>
      by_cases hv : v = u
      · simp [hv]
      · simp [hv]
  refine ⟨?_, ?_, ?_, ?_, ?_, ?_⟩
  · intro hm
    have hT : T.entry u = none := by
      by_contra hne
      obtain ⟨e, he⟩ := Option.ne_none_iff_exists'.1 hne
      exact hm (h.managed.2 ⟨e, he⟩)
    simp only [withTrack, h.tracks u, hT, Option.map_none]
  · intro t ht
    obtain ⟨e, he, rfl⟩ := h.hasTrack.1 ht
    refine ⟨h'.hasTrack.2 ⟨{ e with track := (f e.track).1 }, by rw [hent]; simp [he], rfl⟩, ?_⟩
    rw [ho]; simp only [Table.modifyTrack, he]
  · intro v hv s
    rw [h'.hasTrack, h.hasTrack, hent, if_neg hv]
  · intro v
    refine ⟨?_, ?_, ?_, ?_, ?_⟩
    · rw [h'.managed, h.managed, hent]
      by_cases hv : v = u
      · subst hv; cases T.entry v <;> simp
      · simp [hv]
    · rw [h'.confirmed, h.confirmed, hent]
      by_cases hv : v = u
      · subst hv; cases T.entry v <;> simp
      · simp [hv]
    · rw [h'.tentative, h.tentative, hent]
      by_cases hv : v = u
      · subst hv; cases T.entry v <;> simp
      · simp [hv]
    · simp only [counter, h'.occ v, h.occ v, hent]
      by_cases hv : v = u
      · subst hv; cases T.entry v <;> simp
      · simp [hv]
    · simp only [getOccurrences, h'.occ v, h.occ v, hent]
      by_cases hv : v = u
      · subst hv; cases T.entry v <;> simp
      · simp [hv]
  · exact BitVec.eq_of_toNat_eq (h'.promo.trans (by
      rw [h.promo]; unfold Table.modifyTrack; split <;> rfl))
  · exact BitVec.eq_of_toNat_eq (h'.removal.trans (by
      rw [h.removal]; unfold Table.modifyTrack; split <;> rfl))

/-- Everything except the tracks' data is the same, and tracks other than `u` are
entirely the same. -/
structure SameExcept (u : Uuid) (m m' : Manager τ) : Prop where
  others : ∀ v, v ≠ u → ∀ s, m'.HasTrack v s ↔ m.HasTrack v s
  managed : ∀ v, m'.Managed v ↔ m.Managed v
  confirmed : ∀ v, m'.Confirmed v ↔ m.Confirmed v
  tentative : ∀ v, m'.Tentative v ↔ m.Tentative v
  counter : ∀ v, m'.counter v = m.counter v
  occurrences : ∀ v, m'.getOccurrences v = m.getOccurrences v
  promo : m'.promo = m.promo
  removal : m'.removal = m.removal

/-- C12 (plain tracks, both overloads): the addressed track gets exactly the given
time, state and covariance and keeps UUID and class; nothing else changes; an unknown
UUID throws `std::out_of_range` without effect. -/
theorem C12_update_track_plain {S C : Type} {n : ℕ} {m : Manager (DynObj S C)}
    (hr : ReachableIn S C n m) (hn : n + 3 < 2 ^ 64) (u : Uuid) (ts : ℝ) (s : S) (c : C)
    (src : DynObj S C) :
    (∀ t, m.HasTrack u t →
      (updateTrack u ts s c m).2 = .ok () ∧
      (updateTrack u ts s c m).1.HasTrack u (withEstimate t ts s c) ∧
      (updateTrackFrom u src m).2 = .ok () ∧
      (updateTrackFrom u src m).1.HasTrack u
        (withEstimate t src.timestamp src.state src.covariance)) ∧
    SameExcept u m (updateTrack u ts s c m).1 ∧
    SameExcept u m (updateTrackFrom u src m).1 ∧
    (¬ m.Managed u → updateTrack u ts s c m = (m, .throw .outOfRange) ∧
      updateTrackFrom u src m = (m, .throw .outOfRange)) := by
  obtain ⟨T, h⟩ := reachable_rel hr (by omega)
  have A := modify_view h u (Table.setEstimate ts s c) (uuid_setEstimate ts s c)
  have B := modify_view h u (Table.copyEstimate src) (uuid_copyEstimate src)
  rw [← updateTrack_eq u ts s c m] at A
  rw [← updateTrackFrom_eq u src m] at B
  obtain ⟨a1, a2, a3, a4, a5, a6⟩ := A
  obtain ⟨b1, b2, b3, b4, b5, b6⟩ := B
  refine ⟨?_, ⟨a3, fun v => (a4 v).1, fun v => (a4 v).2.1, fun v => (a4 v).2.2.1,
      fun v => (a4 v).2.2.2.1, fun v => (a4 v).2.2.2.2, a5, a6⟩,
    ⟨b3, fun v => (b4 v).1, fun v => (b4 v).2.1, fun v => (b4 v).2.2.1,
      fun v => (b4 v).2.2.2.1, fun v => (b4 v).2.2.2.2, b5, b6⟩, fun hm => ⟨a1 hm, b1 hm⟩⟩
  intro t ht
  exact ⟨(a2 t ht).2, (a2 t ht).1, (b2 t ht).2, (b2 t ht).1⟩

/-- C12 (variant tracks, both overloads): the calls succeed iff the motion models match;
on success the addressed track gets exactly the given estimate. -/
theorem C12_update_track_variant {S₁ C₁ S₂ C₂ : Type} {n : ℕ} {m : Manager (Obj2 S₁ C₁ S₂ C₂)}
    (hr : ReachableIn (S₁ ⊕ S₂) (C₁ ⊕ C₂) n m) (hn : n + 3 < 2 ^ 64) (u : Uuid) (ts : ℝ)
    (s : S₁ ⊕ S₂) (c : C₁ ⊕ C₂) (src : Obj2 S₁ C₁ S₂ C₂) :
    (∀ t, m.HasTrack u t →
      ((updateTrack u ts s c m).2 = .ok () ↔ (withEstimate2 t ts s c).isSome) ∧
      (∀ t', withEstimate2 t ts s c = some t' →
        (updateTrack u ts s c m).1.HasTrack u t') ∧
      ((updateTrackFrom u src m).2 = .ok () ↔ (t.isLeft = src.isLeft)) ∧
      (∀ t', withEstimate2 t (TrackOps.timestamp src) (src.map (·.state) (·.state))
          (src.map (·.covariance) (·.covariance)) = some t' →
        (updateTrackFrom u src m).1.HasTrack u t')) ∧
    SameExcept u m (updateTrack u ts s c m).1 ∧
    SameExcept u m (updateTrackFrom u src m).1 ∧
    (¬ m.Managed u → updateTrack u ts s c m = (m, .throw .outOfRange) ∧
      updateTrackFrom u src m = (m, .throw .outOfRange)) := by
  obtain ⟨T, h⟩ := reachable_rel hr (by omega)
  have A := modify_view h u (Table.setEstimate ts s c) (uuid_setEstimate ts s c)
  have B := modify_view h u (Table.copyEstimate src) (uuid_copyEstimate src)
  rw [← updateTrack_eq u ts s c m] at A
  rw [← updateTrackFrom_eq u src m] at B
  obtain ⟨a1, a2, a3, a4, a5, a6⟩ := A
  obtain ⟨b1, b2, b3, b4, b5, b6⟩ := B
  refine ⟨?_, ⟨a3, fun v => (a4 v).1, fun v => (a4 v).2.1, fun v => (a4 v).2.2.1,
      fun v => (a4 v).2.2.2.1, fun v => (a4 v).2.2.2.2, a5, a6⟩,
    ⟨b3, fun v => (b4 v).1, fun v => (b4 v).2.1, fun v => (b4 v).2.2.1,
      fun v => (b4 v).2.2.2.1, fun v => (b4 v).2.2.2.2, b5, b6⟩, fun hm => ⟨a1 hm, b1 hm⟩⟩
  intro t ht
  obtain ⟨x1, x2⟩ := a2 t ht
  obtain ⟨y1, y2⟩ := b2 t ht
  rw [x2, y2]
  rcases t with t | t <;> rcases s with s | s <;> rcases c with c | c <;> rcases src with src | src <;>
    (refine ⟨?_, ?_, ?_, ?_⟩
     · simp [Table.setEstimate, TrackOps.setState, TrackOps.setCovariance, TrackOps.setTimestamp,
         withEstimate2]
     · intro t' ht'
       first
         | cases ht'; exact x1
         | cases ht'
     · simp [Table.copyEstimate, TrackOps.copyState, TrackOps.copyCovariance, TrackOps.setTimestamp]
     · intro t' ht'
       first
         | cases ht'; exact y1
         | cases ht')

example : ∃ t, sample.HasTrack (uid 1) t := sample_managed

/-! ## C13 -/

/-- a variant track of the first motion model -/
def vtrk (n : Fin 256) (ts : ℝ) : Obj2 ℕ ℕ ℕ ℕ := .inl ⟨ts, 7, 8, uid n, .pedestrian⟩

/-- C13 as stated is false: `update_track(id, track)` with a track of the other motion
model throws, but the stored track's time stamp has been overwritten. -/
theorem C13_not_atomic :
    ¬ ∀ (n : ℕ) (m : Manager (Obj2 ℕ ℕ ℕ ℕ)), ReachableIn (ℕ ⊕ ℕ) (ℕ ⊕ ℕ) n m → n + 3 < 2 ^ 64 →
      ∀ u src, (updateTrackFrom u src m).2 ≠ .ok () →
        ∀ t, m.HasTrack u t → (updateTrackFrom u src m).1.HasTrack u t := by
  intro hall
  let m0 : Manager (Obj2 ℕ ℕ ℕ ℕ) := run [.add (vtrk 1 0)] (Manager.new 2 0)
  have hr : ReachableIn (ℕ ⊕ ℕ) (ℕ ⊕ ℕ) 0 m0 := ⟨2, 0, _, _, runs_run _ _, rfl⟩
  have ht : m0.HasTrack (uid 1) (vtrk 1 0) := ⟨by
    show _ ∈ [vtrk 1 0]; simp, rfl⟩
  let src : Obj2 ℕ ℕ ℕ ℕ := .inr ⟨1, 7, 8, uid 1, .pedestrian⟩
  have h1 := hall 0 m0 hr (by omega) (uid 1) src (by
    have : (updateTrackFrom (uid 1) src m0).2 = .throw .runtimeError := rfl
    rw [this]; simp) _ ht
  have h2 : (updateTrackFrom (uid 1) src m0).1.getAllTracks = [vtrk 1 1] := rfl
  have h3 := h1.1
  rw [h2, List.mem_singleton] at h3
  simp only [vtrk, Sum.inl.injEq, DynObj.mk.injEq] at h3
  exact absurd h3.1 (by norm_num)

/-- C13, what does hold (`_partial`: the addressed track's time stamp and possibly state
may be changed by a failing call): a failing `update_track` keeps every other track,
every UUID, class, status and count, and the thresholds; with an unknown UUID it
changes nothing at all. -/
theorem C13_failed_update_partial {n : ℕ} {m : Manager τ} (hr : ReachableIn S C n m)
    (hn : n + 3 < 2 ^ 64) (u : Uuid) (ts : ℝ) (s : S) (c : C) (src : τ) :
    SameExcept u m (updateTrack u ts s c m).1 ∧ SameExcept u m (updateTrackFrom u src m).1 ∧
    (∀ t, m.HasTrack u t →
      (∃ t', (updateTrack u ts s c m).1.HasTrack u t' ∧
        TrackOps.semanticClass t' = TrackOps.semanticClass t) ∧
      (∃ t', (updateTrackFrom u src m).1.HasTrack u t' ∧
        TrackOps.semanticClass t' = TrackOps.semanticClass t)) ∧
    (¬ m.Managed u → (updateTrack u ts s c m).1 = m ∧ (updateTrackFrom u src m).1 = m) := by
  obtain ⟨T, h⟩ := reachable_rel hr (by omega)
  have A := modify_view h u (Table.setEstimate ts s c) (uuid_setEstimate ts s c)
  have B := modify_view h u (Table.copyEstimate src) (uuid_copyEstimate src)
  rw [← updateTrack_eq u ts s c m] at A
  rw [← updateTrackFrom_eq u src m] at B
  obtain ⟨a1, a2, a3, a4, a5, a6⟩ := A
  obtain ⟨b1, b2, b3, b4, b5, b6⟩ := B
  refine ⟨⟨a3, fun v => (a4 v).1, fun v => (a4 v).2.1, fun v => (a4 v).2.2.1,
      fun v => (a4 v).2.2.2.1, fun v => (a4 v).2.2.2.2, a5, a6⟩,
    ⟨b3, fun v => (b4 v).1, fun v => (b4 v).2.1, fun v => (b4 v).2.2.1,
      fun v => (b4 v).2.2.2.1, fun v => (b4 v).2.2.2.2, b5, b6⟩, ?_, ?_⟩
  · intro t ht
    refine ⟨⟨_, (a2 t ht).1, ?_⟩, ⟨_, (b2 t ht).1, ?_⟩⟩
    · unfold Table.setEstimate
      have h1 := LawfulTrackOps.cls_setState (TrackOps.setTimestamp t ts) s
      rw [LawfulTrackOps.cls_setTimestamp] at h1
      dsimp only
      split
      · rename_i t2 _ h; rw [h] at h1
        rw [LawfulTrackOps.cls_setCovariance]; exact h1
      · rename_i t2 _ h; rw [h] at h1; exact h1
      · rename_i t2 _ h; rw [h] at h1; exact h1
    · unfold Table.copyEstimate
      have h1 := LawfulTrackOps.cls_copyState
        (TrackOps.setTimestamp t (TrackOps.timestamp src)) src
      rw [LawfulTrackOps.cls_setTimestamp] at h1
      dsimp only
      split
      · rename_i t2 _ h; rw [h] at h1
        rw [LawfulTrackOps.cls_copyCovariance]; exact h1
      · rename_i t2 _ h; rw [h] at h1; exact h1
      · rename_i t2 _ h; rw [h] at h1; exact h1
  · intro hm
    rw [a1 hm, b1 hm]; exact ⟨rfl, rfl⟩

/-- C13, exactly (variant tracks): what a failing `update_track` leaves behind.  Given a track
of the other motion model it has replaced the time stamp and nothing else; given a state of
the other model likewise; given a matching state and a covariance of the other model it has
replaced time stamp and state. -/
theorem C13_left_behind {S₁ C₁ S₂ C₂ : Type} {n : ℕ} {m : Manager (Obj2 S₁ C₁ S₂ C₂)}
    (hr : ReachableIn (S₁ ⊕ S₂) (C₁ ⊕ C₂) n m) (hn : n + 3 < 2 ^ 64) (u : Uuid) (ts : ℝ)
    (o₁ o₁' : DynObj S₁ C₁) (o₂ o₂' : DynObj S₂ C₂) (s₁ : S₁) (s₂ : S₂) (c₁ : C₁) (c₂ : C₂)
    (c : C₁ ⊕ C₂) :
    (m.HasTrack u (.inl o₁) →
      (updateTrackFrom u (.inr o₂') m).2 = .throw .runtimeError ∧
      (updateTrackFrom u (.inr o₂') m).1.HasTrack u (.inl { o₁ with timestamp := o₂'.timestamp }) ∧
      (updateTrack u ts (.inr s₂) c m).2 = .throw .runtimeError ∧
      (updateTrack u ts (.inr s₂) c m).1.HasTrack u (.inl { o₁ with timestamp := ts }) ∧
      (updateTrack u ts (.inl s₁) (.inr c₂) m).2 = .throw .runtimeError ∧
      (updateTrack u ts (.inl s₁) (.inr c₂) m).1.HasTrack u
        (.inl { o₁ with timestamp := ts, state := s₁ })) ∧
    (m.HasTrack u (.inr o₂) →
      (updateTrackFrom u (.inl o₁') m).2 = .throw .runtimeError ∧
      (updateTrackFrom u (.inl o₁') m).1.HasTrack u (.inr { o₂ with timestamp := o₁'.timestamp }) ∧
      (updateTrack u ts (.inl s₁) c m).2 = .throw .runtimeError ∧
      (updateTrack u ts (.inl s₁) c m).1.HasTrack u (.inr { o₂ with timestamp := ts }) ∧
      (updateTrack u ts (.inr s₂) (.inl c₁) m).2 = .throw .runtimeError ∧
      (updateTrack u ts (.inr s₂) (.inl c₁) m).1.HasTrack u
        (.inr { o₂ with timestamp := ts, state := s₂ })) := by
  obtain ⟨T, h⟩ := reachable_rel hr (by omega)
  have A := fun (s : S₁ ⊕ S₂) (c : C₁ ⊕ C₂) =>
    (modify_view h u (Table.setEstimate ts s c) (uuid_setEstimate ts s c)).2.1
  have B := fun src : Obj2 S₁ C₁ S₂ C₂ =>
    (modify_view h u (Table.copyEstimate src) (uuid_copyEstimate src)).2.1
  simp only [← updateTrack_eq, ← updateTrackFrom_eq] at A B
  constructor
  · intro ht
    exact ⟨(B (.inr o₂') _ ht).2, (B (.inr o₂') _ ht).1, (A (.inr s₂) c _ ht).2,
      (A (.inr s₂) c _ ht).1, (A (.inl s₁) (.inr c₂) _ ht).2, (A (.inl s₁) (.inr c₂) _ ht).1⟩
  · intro ht
    exact ⟨(B (.inl o₁') _ ht).2, (B (.inl o₁') _ ht).1, (A (.inl s₁) c _ ht).2,
      (A (.inl s₁) c _ ht).1, (A (.inr s₂) (.inl c₁) _ ht).2, (A (.inr s₂) (.inl c₁) _ ht).1⟩

/-! ## C14 -/

/-- C14: two executions of the same history that differ in the iteration order of the
hash maps (at any point) have the same outcomes, and every getter returns the same at
the end, lists up to order. -/
theorem C14_order_unobservable {p r : BitVec 64} {ops : List (Op τ S C)}
    {os os' : List (Outcome Unit)} {m m' : Manager τ}
    (hr : Runs (Manager.new p r) ops os m) (hr' : Runs (Manager.new p r) ops os' m')
    (hn : numUpdates ops + 2 < 2 ^ 64) : os = os' ∧ SameView m m' := by
  obtain ⟨h, ho⟩ := rel_runs (rel_new p r) hr (by omega)
  obtain ⟨h', ho'⟩ := rel_runs (rel_new p r) hr' (by omega)
  exact ⟨ho.trans ho'.symm, h.sameView h'⟩

/-- Two histories with different internal order exist. -/
example : ∃ (os os' : List (Outcome Unit)) (m m' : Manager (DynObj ℕ ℕ)),
    Runs (Manager.new 2 0) [.add (trk 1), .add (trk 2)] os m ∧
    Runs (Manager.new 2 0) [.add (trk 1), .add (trk 2)] os' m' ∧
    m.getAllTracks ≠ m'.getAllTracks := by
  let m : Manager (DynObj ℕ ℕ) := run [.add (trk 1), .add (trk 2)] (Manager.new 2 0)
  let m' : Manager (DynObj ℕ ℕ) :=
    { m with tracks := ⟨m.tracks.entries.reverse, by
        rw [List.map_reverse, List.nodup_reverse]; exact m.tracks.nodup⟩ }
  refine ⟨_, _, m, m', runs_run _ _, .cons (.refl _) (.cons (.refl _) (.nil ?_)), ?_⟩
  · exact ⟨rfl, rfl, (List.reverse_perm _).symm, .refl _, .refl _⟩
  · intro h
    have h1 : m.getAllTracks.map (·.uuid) = m'.getAllTracks.map (·.uuid) := by rw [h]
    revert h1; decide +kernel

/-! ## C15 -/

/-- C15: only the key set restricted to managed UUIDs matters. -/
theorem C15_keys_only {n : ℕ} {m : Manager τ} (hr : ReachableIn S C n m) (hn : n + 3 < 2 ^ 64)
    (a a' : AssociationMap) (hk : ∀ u, m.Managed u → (u ∈ a.keys ↔ u ∈ a'.keys)) :
    updateTrackLists a m = updateTrackLists a' m := by
  obtain ⟨T, h⟩ := reachable_rel hr (by omega)
  have : m.countAssociations a = m.countAssociations a' := by
    unfold countAssociations
    congr 1
    unfold UMap.mapVals
    congr 1
    refine List.map_congr_left ?_
    rintro ⟨u, c⟩ hx
    have hm : m.Managed u := by
      rw [h.managed]
      have := (UMap.find?_eq_some (m := m.occ)).2 hx
      rw [h.occ u, Option.map_eq_some_iff] at this
      obtain ⟨e, he, _⟩ := this
      exact ⟨e, he⟩
    have h0 : a.count u = 0 ↔ a'.count u = 0 := by
      rw [SMap.count_eq_zero, SMap.count_eq_zero, hk u hm]
    simp only [h0]
  unfold updateTrackLists
  rw [this]

/-- C15: a key with an empty detection list counts as an association. -/
theorem C15_empty_list_counts {n : ℕ} {m : Manager τ} (hr : ReachableIn S C n m)
    (hn : n + 3 < 2 ^ 64) (u : Uuid) (l : List Uuid) :
    updateTrackLists (SMap.empty.set u []) m = updateTrackLists (SMap.empty.set u l) m :=
  C15_keys_only hr hn _ _ (fun v _ => by rw [SMap.keys_set, SMap.keys_set])

example : (updateTrackLists (SMap.empty.set (uid 1) []) sample).1.counter (uid 1) = 2 ∧
    (updateTrackLists SMap.empty sample).1.counter (uid 1) = 1 := by decide +kernel

end Mot.Props
