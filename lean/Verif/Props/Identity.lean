import Verif.Proofs.Identity
import Verif.Props.Period
import Verif.Props.FloatPose
import Mathlib.Data.Fintype.Perm
/-!
# Property C102: objects that can be told apart keep their tracks
-/

namespace Mot.Props

open Mot Spec Manager

/-- C102: if the objects can be told apart by their scores, the association is exactly the pairs that
show the same object. -/
theorem C102_association {τ S C ι : Type} [TrackOps τ S C] {label : Uuid → ι} {ts ds : List τ}
    (hT : (ts.map fun x => label (TrackOps.uuid x)).Nodup)
    (hD : (ds.map fun x => label (TrackOps.uuid x)).Nodup)
    (hbig : ts.length * ds.length < 2 ^ 64) {solve : Solver} (hs : IsOptimalSolver solve)
    {metric : τ → τ → Option FP} {gate : FP → Bool} (hap : Apart label metric gate ts ds) :
    ∃ a, associateStep solve metric gate ts ds = .ok a ∧
      (∀ u v, a.find? u = some [v] ↔ ∃ t ∈ ts, ∃ d ∈ ds,
        TrackOps.uuid t = u ∧ TrackOps.uuid d = v ∧ label u = label v) ∧
      ∀ u l, a.find? u = some l → ∃ v, l = [v] := by
  obtain ⟨a, ha, h⟩ := associate_apart hT hD hbig hs hap
  have hlen : (pruneScoresIf (scoreTracksAndDetections ts ds metric) gate).entries.length < 2 ^ 64 :=
    lt_of_le_of_lt ((prune_length_le _ _).trans (score_length_le _ _ _)) hbig
  have hone := (C19_one_to_one hs.perm hlen ha).1
  refine ⟨a, ha, fun u v => ?_, hone⟩
  rw [← h, mem_pairsOf_iff]
  constructor
  · intro hf
    exact ⟨_, hf, by simp⟩
  · rintro ⟨us, hf, hv⟩
    obtain ⟨v', rfl⟩ := hone u us hf
    rw [List.mem_singleton] at hv
    rw [hv]; exact hf

/-- C102, the limit: if nothing is gated out, some track has no detection and some detection no track,
then every solver that returns permutations associates a pair of different objects. -/
theorem C102_forced {τ S C ι : Type} [TrackOps τ S C] {label : Uuid → ι} {ts ds : List τ}
    (hT : (ts.map fun x => label (TrackOps.uuid x)).Nodup)
    (hD : (ds.map fun x => label (TrackOps.uuid x)).Nodup)
    (hbig : ts.length * ds.length < 2 ^ 64) {solve : Solver} (hs : IsPermSolver solve)
    {metric : τ → τ → Option FP} {gate : FP → Bool}
    (hall : ∀ t ∈ ts, ∀ d ∈ ds, ∃ s, Survives metric gate t d s)
    {t₀ d₀ : τ} (ht₀ : t₀ ∈ ts) (hd₀ : d₀ ∈ ds)
    (hlost : ∀ d ∈ ds, label (TrackOps.uuid d) ≠ label (TrackOps.uuid t₀))
    (hnew : ∀ t ∈ ts, label (TrackOps.uuid t) ≠ label (TrackOps.uuid d₀)) {a : AssociationMap}
    (ha : associateStep solve metric gate ts ds = .ok a) :
    ∃ u v, a.find? u = some [v] ∧ label u ≠ label v := by
  have hTu := uuids_nodup hT
  have hDu := uuids_nodup hD
  have hlen : (pruneScoresIf (scoreTracksAndDetections ts ds metric) gate).entries.length < 2 ^ 64 :=
    lt_of_le_of_lt ((prune_length_le _ _).trans (score_length_le _ _ _)) hbig
  by_contra hcon
  push Not at hcon
  obtain ⟨h1, -, hone, hsc⟩ := C19_one_to_one hs hlen ha
  have hmem : ∀ x ∈ pairsOf a, a.find? x.1 = some [x.2] := by
    intro x hx
    obtain ⟨l, hl, hxl⟩ := mem_pairsOf_iff.1 hx
    obtain ⟨v, rfl⟩ := h1 _ _ hl
    rw [List.mem_singleton.1 hxl]
    exact hl
  have hscored : ∀ t ∈ ts, ∀ d ∈ ds, Scored (pruneScoresIf (scoreTracksAndDetections ts ds metric) gate)
      (TrackOps.uuid t) (TrackOps.uuid d) := by
    intro t ht d hd
    obtain ⟨s, hsv⟩ := hall t ht d hd
    exact Option.isSome_iff_exists.2 ⟨s, (find?_survives hTu hDu ht hd s).2 hsv⟩
  have hd_of : ∀ v, ScoredDetection (pruneScoresIf (scoreTracksAndDetections ts ds metric) gate) v →
      ∃ d ∈ ds, TrackOps.uuid d = v := by
    rintro v ⟨u, hu⟩
    obtain ⟨t, ht, d, hd, -, h2, -⟩ := scored_present hu
    exact ⟨d, hd, h2⟩
  have ht_of : ∀ u, ScoredTrack (pruneScoresIf (scoreTracksAndDetections ts ds metric) gate) u →
      ∃ t ∈ ts, TrackOps.uuid t = u := by
    rintro u ⟨v, hv⟩
    obtain ⟨t, ht, d, hd, h2, -, -⟩ := scored_present hv
    exact ⟨t, ht, h2⟩
  have hno_t : ∀ x ∈ pairsOf a, x.1 ≠ TrackOps.uuid t₀ := by
    intro x hx he
    obtain ⟨d, hd, hdv⟩ := hd_of _ (hsc x hx).2
    have := hcon _ _ (hmem x hx)
    rw [he, ← hdv] at this
    exact hlost d hd this.symm
  have hno_d : ∀ x ∈ pairsOf a, x.2 ≠ TrackOps.uuid d₀ := by
    intro x hx he
    obtain ⟨t, ht, htu⟩ := ht_of _ (hsc x hx).1
    have := hcon _ _ (hmem x hx)
    rw [he, ← htu] at this
    exact hnew t ht this
  have hcard := (C20_card hs hlen ha).1
  have hone' : OneToOne ((TrackOps.uuid t₀, TrackOps.uuid d₀) :: pairsOf a) := by
    refine ⟨List.nodup_cons.2 ⟨?_, hone.1⟩, List.nodup_cons.2 ⟨?_, hone.2⟩⟩
    · intro hm
      obtain ⟨x, hx, he⟩ := List.mem_map.1 hm
      exact hno_t x hx he
    · intro hm
      obtain ⟨x, hx, he⟩ := List.mem_map.1 hm
      exact hno_d x hx he
  have := length_le_counts (scores := pruneScoresIf (scoreTracksAndDetections ts ds metric) gate)
    hone' (by
      intro x hx
      rcases List.mem_cons.1 hx with rfl | hx
      · exact hscored _ ht₀ _ hd₀
      · obtain ⟨t, ht, htu⟩ := ht_of _ (hsc x hx).1
        obtain ⟨d, hd, hdv⟩ := hd_of _ (hsc x hx).2
        rw [← htu, ← hdv]
        exact hscored t ht d hd)
  rw [List.length_cons, hcard] at this
  omega

section
variable {S₁ C₁ S₂ C₂ ι : Type} {label : Uuid → ι}

/-- what a table shows about the object `o` -/
def TableShows (T : Table (Obj2 S₁ C₁ S₂ C₂)) (label : Uuid → ι) (o : ι) :
    Option (Solo (Obj2 S₁ C₁ S₂ C₂)) → Prop
  | none => ∀ u e, T.entry u = some e → label u ≠ o
  | some s => label (TrackOps.uuid s.track) = o ∧
      T.entry (TrackOps.uuid s.track) = some ⟨s.track, s.count, s.confirmed⟩ ∧
      ∀ u e, T.entry u = some e → label u = o → u = TrackOps.uuid s.track

theorem shows_iff {n : ℕ} (hn : n + 1 < 2 ^ 64) {m : Manager (Obj2 S₁ C₁ S₂ C₂)}
    {T : Table (Obj2 S₁ C₁ S₂ C₂)} (h : Rel n m T) (o : ι) (x : Option (Solo (Obj2 S₁ C₁ S₂ C₂))) :
    Shows m label o x ↔ TableShows T label o x := by
  have hmem : ∀ t, t ∈ m.getAllTracks ↔ ∃ e, T.entry (TrackOps.uuid t) = some e ∧ e.track = t :=
    fun t => ⟨fun ht => h.hasTrack.1 ⟨ht, rfl⟩, fun he => (h.hasTrack.2 he).1⟩
  rcases x with _ | s
  · simp only [Shows, Option.map_none, Only, TableShows]
    constructor
    · rintro ⟨h1, -⟩ u e he hl
      have hu := h.uuid u e he
      exact h1 e.track ((hmem _).2 ⟨e, hu.symm ▸ he, rfl⟩) (hu.symm ▸ hl)
    · intro h1
      refine ⟨fun t ht => ?_, fun s hs => by cases hs⟩
      obtain ⟨e, he, -⟩ := (hmem t).1 ht
      exact h1 _ e he
  · simp only [Shows, Option.map_some, Only, TableShows]
    constructor
    · rintro ⟨h1, h2⟩
      obtain ⟨ht, hl⟩ := (h1 s.track).2 rfl
      obtain ⟨e, he, het⟩ := (hmem _).1 ht
      obtain ⟨hc, hf, hf'⟩ := h2 s rfl
      rw [h.counter_some hn he] at hc
      have : e = ⟨s.track, s.count, s.confirmed⟩ := by
        obtain ⟨t, c, f⟩ := e
        simp only at hc het
        subst hc het
        congr 1
        rw [h.confirmed] at hf
        have := hf.1
        cases f with
        | true => exact (hf.1 ⟨_, he, rfl⟩).symm
        | false =>
          cases hsf : s.confirmed with
          | false => rfl
          | true =>
            obtain ⟨e', he', hf''⟩ := hf.2 hsf
            rw [he] at he'
            cases he'
            cases hf''
      subst this
      refine ⟨hl, he, fun u e' he' hl' => ?_⟩
      have hu := h.uuid u e' he'
      have := (h1 e'.track).1 ⟨(hmem _).2 ⟨e', hu.symm ▸ he', rfl⟩, hu.symm ▸ hl'⟩
      rw [← this]; exact hu.symm
    · rintro ⟨hl, he, hu⟩
      refine ⟨fun t => ⟨?_, ?_⟩, fun s' hs' => ?_⟩
      · rintro ⟨ht, hlt⟩
        obtain ⟨e', he', rfl⟩ := (hmem t).1 ht
        have := hu _ e' he' hlt
        rw [this, he] at he'
        cases he'; rfl
      · rintro rfl
        exact ⟨(hmem _).2 ⟨_, he, rfl⟩, hl⟩
      · cases hs'
        refine ⟨h.counter_some hn he, ?_, ?_⟩
        · rw [h.confirmed]
          exact ⟨fun ⟨e', he', hf⟩ => by rw [he] at he'; cases he'; exact hf, fun hf => ⟨_, he, hf⟩⟩
        · rw [h.tentative]
          exact ⟨fun ⟨e', he', hf⟩ => by rw [he] at he'; cases he'; exact hf, fun hf => ⟨_, he, hf⟩⟩

/-- C102: a period of objects that can be told apart.  It completes, and what it does with an object
is what a tracker for that object alone does with the object's own detection. -/
theorem C102_period {n : ℕ} {m : Manager (Obj2 S₁ C₁ S₂ C₂)} (hr : ReachableIn _ _ n m)
    (hn : n + 3 < 2 ^ 64) {solve : Solver} (hs : IsOptimalSolver solve)
    {metric : Obj2 S₁ C₁ S₂ C₂ → Obj2 S₁ C₁ S₂ C₂ → Option FP} {gate : FP → Bool}
    {visitor : Obj2 S₁ C₁ S₂ C₂ → Obj2 S₁ C₁ S₂ C₂ → Outcome (Obj2 S₁ C₁ S₂ C₂)}
    (hv : ∀ t d f, visitor t d = .ok f → SameObject t f)
    {align : Obj2 S₁ C₁ S₂ C₂ → Outcome (Obj2 S₁ C₁ S₂ C₂)}
    (hal : ∀ o o', align o = .ok o' → SameObject o o') {ds : List (Obj2 S₁ C₁ S₂ C₂)}
    (hone : ∀ o, ∃ x, Only m.getAllTracks label o x)
    (hds : (ds.map fun d => label (TrackOps.uuid d)).Nodup)
    (hbig : m.getAllTracks.length * ds.length < 2 ^ 64) {ts' ds' : List (Obj2 S₁ C₁ S₂ C₂)}
    (ht : List.Forall₂ (fun x y => align x = .ok y) m.getAllTracks ts')
    (hd : List.Forall₂ (fun x y => align x = .ok y) ds ds')
    (hap : Apart label metric gate ts' ds')
    (hf : ∀ t ∈ ts', ∀ d ∈ ds', label (TrackOps.uuid t) = label (TrackOps.uuid d) →
      (visitor t d).IsOk) :
    ∃ m' a, period solve metric gate visitor makeTrack2 align ds m = (m', .ok a) ∧
      m'.promo = m.promo ∧ m'.removal = m.removal ∧
      ∀ o x d, Shows m label o x → Only ds label o d →
        ∃ x', SoloStep visitor makeTrack2 align m.promo.toNat m.removal.toNat x d x' ∧
          Shows m' label o x' := by
  obtain ⟨T, h⟩ := reachable_rel hr (by omega)
  have hd' : List.Forall₂ SameObject ds ds' := hd.imp fun x y => hal x y
  have ht' : List.Forall₂ SameObject m.getAllTracks ts' := ht.imp fun x y => hal x y
  have hlab : ∀ l : List (Obj2 S₁ C₁ S₂ C₂),
      (l.map fun d => label (TrackOps.uuid d)) = (l.map TrackOps.uuid).map label := by
    intro l; rw [List.map_map]; rfl
  have hmN : (m.getAllTracks.map fun d => label (TrackOps.uuid d)).Nodup := by
    refine List.Nodup.map_on ?_ (List.Nodup.of_map _ h.nodup)
    intro x hx y hy he
    obtain ⟨z, hz⟩ := hone (label (TrackOps.uuid x))
    rcases z with _ | z
    · exact absurd rfl (hz x hx)
    · rw [(hz x).1 ⟨hx, rfl⟩, (hz y).1 ⟨hy, he.symm⟩]
  have hT' : (ts'.map fun d => label (TrackOps.uuid d)).Nodup := by
    rw [hlab, SameObject.uuids ht', ← hlab]; exact hmN
  have hD' : (ds'.map fun d => label (TrackOps.uuid d)).Nodup := by
    rw [hlab, SameObject.uuids hd', ← hlab]; exact hds
  have hdu := uuids_nodup hds
  obtain ⟨a, ha, hmem, hsing⟩ := C102_association hT' hD'
    (by rw [← ht'.length_eq, ← hd'.length_eq]; exact hbig) hs hap
  -- the association in terms of the objects before the prediction
  have hown : ∀ u v, a.find? u = some [v] ↔ ∃ t ∈ m.getAllTracks, ∃ d ∈ ds,
      TrackOps.uuid t = u ∧ TrackOps.uuid d = v ∧ label u = label v := by
    intro u v
    rw [hmem]
    have e1 : ∀ l l' : List (Obj2 S₁ C₁ S₂ C₂), List.Forall₂ SameObject l l' → ∀ u,
        (∃ t ∈ l', TrackOps.uuid t = u) ↔ ∃ t ∈ l, TrackOps.uuid t = u := by
      intro l l' hl u
      rw [← List.mem_map, ← List.mem_map, SameObject.uuids hl]
    have e2 := e1 _ _ ht' u
    have e3 := e1 _ _ hd' v
    constructor
    · rintro ⟨t, htm, d, hdm, h1, h2, h3⟩
      obtain ⟨t₀, ht₀, h1'⟩ := e2.1 ⟨t, htm, h1⟩
      obtain ⟨d₀, hd₀, h2'⟩ := e3.1 ⟨d, hdm, h2⟩
      exact ⟨t₀, ht₀, d₀, hd₀, h1', h2', h3⟩
    · rintro ⟨t, htm, d, hdm, h1, h2, h3⟩
      obtain ⟨t₀, ht₀, h1'⟩ := e2.2 ⟨t, htm, h1⟩
      obtain ⟨d₀, hd₀, h2'⟩ := e3.2 ⟨d, hdm, h2⟩
      exact ⟨t₀, ht₀, d₀, hd₀, h1', h2', h3⟩
  have hkeys : ∀ u, u ∈ a.keys ↔ ∃ v, a.find? u = some [v] := by
    intro u
    constructor
    · intro hu
      obtain ⟨⟨u', l⟩, he, rfl⟩ := List.mem_map.1 hu
      have hfi := SMap.find?_eq_some.2 he
      obtain ⟨v, rfl⟩ := hsing _ _ hfi
      exact ⟨v, hfi⟩
    · rintro ⟨v, hfi⟩
      exact List.mem_map.2 ⟨_, SMap.find?_eq_some.1 hfi, rfl⟩
  have hun : ∀ d ∈ ds, (Unassociated a d ↔
      ∀ t ∈ m.getAllTracks, label (TrackOps.uuid t) ≠ label (TrackOps.uuid d)) := by
    intro d hdm
    constructor
    · intro hu t htm hl
      exact hu _ _ ((hown _ _).2 ⟨t, htm, d, hdm, rfl, rfl, hl⟩) (by simp)
    · intro hno u l hl hin
      obtain ⟨v, rfl⟩ := hsing u l hl
      rw [List.mem_singleton] at hin
      obtain ⟨t, htm, -, -, rfl, -, h3⟩ := (hown _ _).1 hl
      exact hno t htm (hin ▸ h3)
  have hmt : ∀ u e, T.entry u = some e → e.track ∈ m.getAllTracks ∧ TrackOps.uuid e.track = u :=
    fun u e he => h.hasTrack.2 ⟨e, he, rfl⟩
  -- the fusion succeeds
  have hfok : (fuseAssociations a ts' ds' visitor).IsOk := by
    have key : ∀ l : List (Obj2 S₁ C₁ S₂ C₂ × Obj2 S₁ C₁ S₂ C₂),
        (∀ p ∈ l, (visitor p.1 p.2).IsOk) →
        ∃ out, List.Forall₂ (fun p x => visitor p.1 p.2 = .ok x) l out := by
      intro l
      induction l with
      | nil => exact fun _ => ⟨[], .nil⟩
      | cons p l ih =>
        intro hp
        obtain ⟨out, ho⟩ := ih fun q hq => hp q (by simp [hq])
        have h1 := hp p (by simp)
        rcases hx : visitor p.1 p.2 with f | e | w
        · exact ⟨f :: out, .cons hx ho⟩
        · rw [hx] at h1; simp at h1
        · rw [hx] at h1; simp at h1
    obtain ⟨out, ho⟩ := key (associatedPairs a ts' ds') (by
      rintro ⟨t, d⟩ hp
      obtain ⟨htm, hdm, us, hfi, hin⟩ := (mem_associatedPairs a ts' ds' t d).1 hp
      obtain ⟨v, rfl⟩ := hsing _ _ hfi
      rw [List.mem_singleton] at hin
      subst hin
      obtain ⟨-, -, -, -, -, -, h3⟩ := (hmem _ _).1 hfi
      exact hf t htm d hdm h3)
    rw [(C29_exactly_the_pairs a ts' ds' visitor out).2 ho]
    simp
  have hok := (C100_completes_iff hr hn hs.perm metric gate hv hal hdu hbig a).2
    ⟨ds', ts', hd, ht, ha, hfok, by
      rintro d hdm hda ⟨t, htm, htu⟩
      exact absurd (congrArg label htu) ((hun d hdm).1 hda t htm)⟩
  obtain ⟨m', hp⟩ : ∃ m', period solve metric gate visitor makeTrack2 align ds m = (m', .ok a) :=
    ⟨_, Prod.ext rfl hok⟩
  obtain ⟨T', h', hpr, hrem, hst, hnot, hin⟩ := period_rel hn h hs.perm hv hal hdu hbig hp
  refine ⟨m', a, hp, ?_, ?_, ?_⟩
  · exact BitVec.eq_of_toNat_eq (by rw [h'.promo, hpr, h.promo])
  · exact BitVec.eq_of_toNat_eq (by rw [h'.removal, hrem, h.removal])
  intro o x d hx hdo
  rw [shows_iff (by omega) h] at hx
  simp only [shows_iff (show n + 1 + 1 < 2 ^ 64 by omega) h', h.promo, h.removal]
  -- an entry that was not started in this period was there before
  have hback : ∀ u e', T'.entry u = some e' → ¬ Starts a ds u → ∃ e, T.entry u = some e := by
    intro u e' he' hsu
    have hns : ∀ d ∈ ds, TrackOps.uuid d = u → ¬ Unassociated a d :=
      fun d hd e ha => hsu ⟨d, hd, e, ha⟩
    by_cases hu : u ∈ a.keys
    · obtain ⟨e, -, -, -, -, -, he, -⟩ := hin u hns hu
      exact ⟨e, he⟩
    · rw [hnot u hns hu] at he'
      obtain ⟨e, he, -⟩ := Option.bind_eq_some_iff.1 he'
      exact ⟨e, he⟩
  rcases x with _ | s
  · have hno : ∀ t ∈ m.getAllTracks, label (TrackOps.uuid t) ≠ o := by
      intro t htm
      obtain ⟨e, he, -⟩ := h.hasTrack.1 ⟨htm, rfl⟩
      exact hx _ e he
    rcases d with _ | d
    · refine ⟨none, .idle, fun u e he hl => ?_⟩
      by_cases hsu : Starts a ds u
      · obtain ⟨d', hdm, rfl, -⟩ := hsu
        exact hdo d' hdm hl
      · obtain ⟨e', he'⟩ := hback u e he hsu
        exact hx u e' he' hl
    · obtain ⟨hdm, hdl⟩ := (hdo d).2 rfl
      have hda : Unassociated a d := (hun d hdm).2 fun t htm => hdl ▸ hno t htm
      obtain ⟨y, hy, hT⟩ := hst d hdm hda
      have hyu : TrackOps.uuid (makeTrack2 y) = TrackOps.uuid d := by
        rw [makeTrack2_uuid]; exact (hal d y hy).uuid
      refine ⟨_, .start hy, by rw [hyu]; exact hdl, by rw [hyu]; exact hT, fun u e he hl => ?_⟩
      simp only [hyu]
      by_cases hsu : Starts a ds u
      · obtain ⟨d', hdm', rfl, -⟩ := hsu
        rw [(hdo d').1 ⟨hdm', hl⟩]
      · obtain ⟨e', he'⟩ := hback u e he hsu
        exact absurd hl (hx u e' he')
  · obtain ⟨hl, he, huniq⟩ := hx
    set u := TrackOps.uuid s.track with hu
    have htm := (hmt u _ he).1
    have honly : ∀ v e', T'.entry v = some e' → label v = o → v = u := by
      intro v e' hv' hlv
      by_cases hsv : Starts a ds v
      · obtain ⟨d', hdm, rfl, hda⟩ := hsv
        exact absurd (hl.trans hlv.symm) ((hun d' hdm).1 hda _ htm)
      · obtain ⟨e₀, he₀⟩ := hback v e' hv' hsv
        exact huniq v e₀ he₀ hlv
    have hkeep : ∀ (t : Obj2 S₁ C₁ S₂ C₂) (b : Bool), TrackOps.uuid t = u →
        T'.entry u = Table.updateEntry T.promo T.removal b ⟨t, s.count, s.confirmed⟩ →
        TableShows T' label o (Solo.keep T.promo T.removal t
          (if b then min (s.count + 1) T.promo else s.count - 1) s.confirmed) := by
      intro t b htu hT
      simp only [Table.updateEntry, Table.newCount] at hT
      unfold Solo.keep
      generalize (if b = true then min (s.count + 1) T.promo else s.count - 1) = c at hT ⊢
      by_cases hc : c ≤ T.removal
      · rw [if_pos hc] at hT ⊢
        intro v e' hv' hlv
        rw [honly v e' hv' hlv, hT] at hv'
        cases hv'
      · rw [if_neg hc] at hT ⊢
        simp only [TableShows, htu]
        exact ⟨hl, hT, honly⟩
    rcases d with _ | d
    · have hk : u ∉ a.keys := by
        intro hk
        obtain ⟨v, hfi⟩ := (hkeys u).1 hk
        obtain ⟨-, -, d', hdm, -, h2, h3⟩ := (hown _ _).1 hfi
        exact hdo d' hdm (by rw [h2, ← h3]; exact hl)
      have hns : ∀ d ∈ ds, TrackOps.uuid d = u → ¬ Unassociated a d := by
        intro d' hdm hdu' _
        exact hdo d' hdm (by rw [hdu']; exact hl)
      have hT := hnot u hns hk
      rw [he, Option.bind_some] at hT
      refine ⟨_, .miss, ?_⟩
      exact hkeep s.track false rfl hT
    · obtain ⟨hdm, hdl⟩ := (hdo d).2 rfl
      have hfi : a.find? u = some [TrackOps.uuid d] :=
        (hown _ _).2 ⟨_, htm, d, hdm, rfl, rfl, hl.trans hdl.symm⟩
      have hk : u ∈ a.keys := (hkeys u).2 ⟨_, hfi⟩
      have hns : ∀ d ∈ ds, TrackOps.uuid d = u → ¬ Unassociated a d := by
        intro d' hdm' hdu' hda
        exact (hun d' hdm').1 hda _ htm (by rw [hdu'])
      obtain ⟨e', x, d', hdm', y, f, he', hx', hy, hfi', hvf, hT⟩ := hin u hns hk
      rw [he] at he'
      cases he'
      rw [hfi] at hfi'
      have : d' = d := eq_of_uuid hdu hdm' hdm (by
        have := Option.some.inj hfi'
        exact (List.cons.inj this).1.symm)
      subst this
      refine ⟨_, .hit hx' hy hvf, ?_⟩
      refine hkeep f true ?_ hT
      rw [(hv _ _ _ hvf).uuid, (hal _ _ hx').uuid]

/-- the manager after a completed period is reachable -/
theorem period_reachable {n : ℕ} {m m' : Manager (Obj2 S₁ C₁ S₂ C₂)} (hr : ReachableIn _ _ n m)
    {solve : Solver} {metric : Obj2 S₁ C₁ S₂ C₂ → Obj2 S₁ C₁ S₂ C₂ → Option FP} {gate : FP → Bool}
    {visitor : Obj2 S₁ C₁ S₂ C₂ → Obj2 S₁ C₁ S₂ C₂ → Outcome (Obj2 S₁ C₁ S₂ C₂)}
    {align : Obj2 S₁ C₁ S₂ C₂ → Outcome (Obj2 S₁ C₁ S₂ C₂)} {ds : List (Obj2 S₁ C₁ S₂ C₂)}
    {a : AssociationMap}
    (hp : period solve metric gate visitor makeTrack2 align ds m = (m', .ok a)) :
    ∃ n' ≤ n + 1, ReachableIn _ _ n' m' := by
  obtain ⟨ds', ts', m₁, -, -, hc, hadd⟩ := period_ok.1 hp
  have key : ∀ k, ReachableIn _ _ k m₁ → ReachableIn _ _ k m' := by
    intro k hk
    have := reachable_forEach (fun d => Manager.addTentativeTrack (makeTrack2 d))
      (fun x _ h => reachable_step h (.add (makeTrack2 x)))
      (ds'.filter fun d => !(HasAssociation.new a).detection d) hk
    unfold addUnassociated at hadd
    rw [hadd] at this
    exact this
  rcases cycleOn_reachable hr solve metric gate visitor ts' ds' with h | h
  · rw [hc] at h; exact ⟨n + 1, le_rfl, key _ h⟩
  · rw [hc] at h; exact ⟨n, by omega, key _ h⟩

/-- C102: any number of periods of objects that can be told apart.  The manager shows of every object
what a tracker for that object alone shows after the same periods: the same track (with its UUID,
estimate, time and class), count and status, and no second track of the object. -/
theorem C102_run {n : ℕ} {m m' : Manager (Obj2 S₁ C₁ S₂ C₂)} (hr : ReachableIn _ _ n m)
    {visitor : Obj2 S₁ C₁ S₂ C₂ → Obj2 S₁ C₁ S₂ C₂ → Outcome (Obj2 S₁ C₁ S₂ C₂)}
    (hv : ∀ t d f, visitor t d = .ok f → SameObject t f)
    {align : ℝ → Obj2 S₁ C₁ S₂ C₂ → Outcome (Obj2 S₁ C₁ S₂ C₂)}
    (hal : ∀ time o o', align time o = .ok o' → SameObject o o')
    {l : List (ℝ × List (Obj2 S₁ C₁ S₂ C₂))} (hn : n + l.length + 3 < 2 ^ 64)
    {x₀ : ι → Option (Solo (Obj2 S₁ C₁ S₂ C₂))} (h₀ : ∀ o, Shows m label o (x₀ o))
    (h : ApartRun visitor makeTrack2 align label m l m') :
    ∃ x : ι → Option (Solo (Obj2 S₁ C₁ S₂ C₂)), ∀ o,
      SoloRun visitor makeTrack2 align m.promo.toNat m.removal.toNat label o (x₀ o) l (x o) ∧
        Shows m' label o (x o) := by
  suffices key : (∃ k ≤ n + l.length, ReachableIn _ _ k m') ∧ m'.promo = m.promo ∧
      m'.removal = m.removal ∧ ∃ x : ι → Option (Solo (Obj2 S₁ C₁ S₂ C₂)), ∀ o,
      SoloRun visitor makeTrack2 align m.promo.toNat m.removal.toNat label o (x₀ o) l (x o) ∧
        Shows m' label o (x o) from key.2.2.2
  induction h with
  | nil => exact ⟨⟨n, by omega, hr⟩, rfl, rfl, x₀, fun o => ⟨.nil _, h₀ o⟩⟩
  | @snoc m₁ l time ds _ solve hs metric gate hds hbig ts' ds' ht hd hap hf ih =>
    rw [List.length_append, List.length_singleton] at hn
    obtain ⟨⟨k, hk, hrk⟩, hpr, hrem, x, hx⟩ := ih (by omega)
    obtain ⟨m₂, a, hp, hpr', hrem', hstep⟩ := C102_period hrk (by omega) hs hv (hal time)
      (fun o => ⟨_, (hx o).2.1⟩) hds hbig ht hd hap hf
    rw [hp]
    refine ⟨?_, hpr'.trans hpr, hrem'.trans hrem, ?_⟩
    · obtain ⟨k', hk', hr'⟩ := period_reachable hrk hp
      exact ⟨k', by rw [List.length_append, List.length_singleton]; omega, hr'⟩
    · have hone : ∀ o, ∃ d, Only ds label o d := by
        intro o
        by_cases h : ∃ d ∈ ds, label (TrackOps.uuid d) = o
        · obtain ⟨d, hdm, hdl⟩ := h
          refine ⟨some d, fun y => ⟨fun ⟨hy, hl⟩ => eq_of_label hds hy hdm (hl.trans hdl.symm), ?_⟩⟩
          rintro rfl
          exact ⟨hdm, hdl⟩
        · push Not at h
          exact ⟨none, h⟩
      have hall : ∀ o, ∃ y,
          SoloRun visitor makeTrack2 align m.promo.toNat m.removal.toNat label o (x₀ o)
            (l ++ [(time, ds)]) y ∧ Shows m₂ label o y := by
        intro o
        obtain ⟨d, hdo⟩ := hone o
        obtain ⟨y, hy, hsy⟩ := hstep o (x o) d (hx o).2 hdo
        rw [hpr, hrem] at hy
        exact ⟨y, .snoc (hx o).1 hdo hy, hsy⟩
      choose y hy using hall
      exact ⟨y, hy⟩

/-- C102: every period of such a sequence completes. -/
theorem C102_completes {n : ℕ} {m m' : Manager (Obj2 S₁ C₁ S₂ C₂)} (hr : ReachableIn _ _ n m)
    {visitor : Obj2 S₁ C₁ S₂ C₂ → Obj2 S₁ C₁ S₂ C₂ → Outcome (Obj2 S₁ C₁ S₂ C₂)}
    (hv : ∀ t d f, visitor t d = .ok f → SameObject t f)
    {align : ℝ → Obj2 S₁ C₁ S₂ C₂ → Outcome (Obj2 S₁ C₁ S₂ C₂)}
    (hal : ∀ time o o', align time o = .ok o' → SameObject o o')
    {l : List (ℝ × List (Obj2 S₁ C₁ S₂ C₂))} (hn : n + l.length + 3 < 2 ^ 64)
    (hone : ∀ o, ∃ x, Only m.getAllTracks label o x)
    (h : ApartRun visitor makeTrack2 align label m l m') :
    ∃ log : List (PeriodLog (Obj2 S₁ C₁ S₂ C₂)), Periods visitor makeTrack2 align m log m' ∧
      log.map (fun p => (p.time, p.detections)) = l := by
  suffices key : (∃ k ≤ n + l.length, ReachableIn _ _ k m') ∧
      (∀ o, ∃ x, Only m'.getAllTracks label o x) ∧
      ∃ log : List (PeriodLog (Obj2 S₁ C₁ S₂ C₂)), Periods visitor makeTrack2 align m log m' ∧
        log.map (fun p => (p.time, p.detections)) = l from key.2.2
  induction h with
  | nil => exact ⟨⟨n, by omega, hr⟩, hone, [], .nil _, rfl⟩
  | @snoc m₁ l time ds _ solve hs metric gate hds hbig ts' ds' ht hd hap hf ih =>
    rw [List.length_append, List.length_singleton] at hn
    obtain ⟨⟨k, hk, hrk⟩, ho, log, hlog, hl⟩ := ih (by omega)
    obtain ⟨m₂, a, hp, -, -, hstep⟩ := C102_period hrk (by omega) hs hv (hal time) ho hds hbig ht hd
      hap hf
    obtain ⟨T, hT⟩ := reachable_rel hrk (by omega)
    rw [hp]
    refine ⟨?_, ?_, log ++ [⟨time, ds, a⟩], .snoc ⟨time, ds, a⟩ hlog hs.perm (uuids_nodup hds) hbig hp,
      by simp [hl]⟩
    · obtain ⟨k', hk', hr'⟩ := period_reachable hrk hp
      exact ⟨k', by rw [List.length_append, List.length_singleton]; omega, hr'⟩
    · intro o
      have hshow : ∃ x, Shows m₁ label o x := by
        obtain ⟨x, hx⟩ := ho o
        rcases x with _ | t
        · exact ⟨none, hx, fun s hs => by cases hs⟩
        · obtain ⟨htm, -⟩ := (hx t).2 rfl
          obtain ⟨e, he, rfl⟩ := hT.hasTrack.1 ⟨htm, rfl⟩
          refine ⟨some ⟨e.track, e.count, e.confirmed⟩, ?_⟩
          rw [shows_iff (by omega) hT]
          refine ⟨((hx _).2 rfl).2, he, fun u e' he' hl' => ?_⟩
          have hu := hT.uuid u e' he'
          have := (hx e'.track).1 ⟨(hT.hasTrack.2 ⟨e', he', rfl⟩).1, hu.symm ▸ hl'⟩
          rw [← this, hu]
      obtain ⟨x, hx⟩ := hshow
      have hdo : ∃ d, Only ds label o d := by
        by_cases h : ∃ d ∈ ds, label (TrackOps.uuid d) = o
        · obtain ⟨d, hdm, hdl⟩ := h
          refine ⟨some d, fun y => ⟨fun ⟨hy, hl⟩ => eq_of_label hds hy hdm (hl.trans hdl.symm), ?_⟩⟩
          rintro rfl
          exact ⟨hdm, hdl⟩
        · push Not at h
          exact ⟨none, h⟩
      obtain ⟨d, hdo⟩ := hdo
      obtain ⟨y, -, hy⟩ := hstep o x d hx hdo
      exact ⟨_, hy.1⟩

theorem soloRun_nil {visitor : Obj2 S₁ C₁ S₂ C₂ → Obj2 S₁ C₁ S₂ C₂ → Outcome (Obj2 S₁ C₁ S₂ C₂)}
    {make : Obj2 S₁ C₁ S₂ C₂ → Obj2 S₁ C₁ S₂ C₂}
    {align : ℝ → Obj2 S₁ C₁ S₂ C₂ → Outcome (Obj2 S₁ C₁ S₂ C₂)} {promo removal : ℕ} {o : ι}
    {x x' : Option (Solo (Obj2 S₁ C₁ S₂ C₂))}
    (h : SoloRun visitor make align promo removal label o x [] x') : x' = x := by
  generalize hL : ([] : List (ℝ × List (Obj2 S₁ C₁ S₂ C₂))) = L at h
  cases h with
  | nil => rfl
  | snoc => simp at hL

/-- C102: an object without a track that is then detected in every period has exactly one track.  It
has the UUID of the object's first detection, its count is the number of periods up to the promotion
threshold, and it is confirmed from the second period on, as soon as the count is at the threshold. -/
theorem C102_seen {visitor : Obj2 S₁ C₁ S₂ C₂ → Obj2 S₁ C₁ S₂ C₂ → Outcome (Obj2 S₁ C₁ S₂ C₂)}
    (hv : ∀ t d f, visitor t d = .ok f → SameObject t f)
    {align : ℝ → Obj2 S₁ C₁ S₂ C₂ → Outcome (Obj2 S₁ C₁ S₂ C₂)}
    (hal : ∀ time o o', align time o = .ok o' → SameObject o o') {promo removal : ℕ}
    (h2 : removal < 2) (hp : removal < promo) {o : ι}
    {l : List (ℝ × List (Obj2 S₁ C₁ S₂ C₂))} (hl : l ≠ [])
    (hseen : ∀ p ∈ l, ∃ d ∈ p.2, label (TrackOps.uuid d) = o)
    {x : Option (Solo (Obj2 S₁ C₁ S₂ C₂))}
    (h : SoloRun visitor makeTrack2 align promo removal label o none l x) :
    ∃ s, x = some s ∧ (∃ p, l.head? = some p ∧ ∃ d ∈ p.2, label (TrackOps.uuid d) = o ∧
        TrackOps.uuid s.track = TrackOps.uuid d) ∧
      s.count = min l.length promo ∧ (s.confirmed = true ↔ 2 ≤ l.length ∧ promo ≤ l.length) := by
  generalize hx₀ : (none : Option (Solo (Obj2 S₁ C₁ S₂ C₂))) = x₀ at h
  induction h with
  | nil => exact absurd rfl hl
  | @snoc x' x'' l time ds d hrun hd hstep ih =>
    obtain ⟨d', hd', hl'⟩ := hseen (time, ds) (List.mem_append_right _ (List.mem_singleton_self _))
    cases d with
    | none => exact absurd hl' (hd d' hd')
    | some d =>
    obtain ⟨hdm, hdo⟩ := (hd d).2 rfl
    by_cases hne : l = []
    · subst hne
      have hx' := (soloRun_nil hrun).trans hx₀.symm
      subst hx'
      cases hstep with
      | start hy =>
      refine ⟨_, rfl, ⟨_, rfl, d, hdm, hdo, ?_⟩, ?_, ?_⟩
      · rw [makeTrack2_uuid]
        exact (hal _ _ _ hy).uuid
      · simp only [List.nil_append, List.length_singleton]; omega
      · simp
    · obtain ⟨s, rfl, ⟨p, hp1, d₀, hp2, hp3, hp4⟩, hc, hcf⟩ :=
        ih hne (fun p hp => hseen p (List.mem_append_left _ hp))
      have hk : 1 ≤ l.length := List.length_pos_iff.2 hne
      cases hstep with
      | hit ht hy hf =>
      have hc' : min (s.count + 1) promo = min (l.length + 1) promo := by omega
      rw [hc']
      rw [Solo.keep, if_neg (by omega)]
      refine ⟨_, rfl, ⟨p, ?_, d₀, hp2, hp3, ?_⟩, ?_, ?_⟩
      · rw [List.head?_append, hp1]; rfl
      · rw [← hp4]
        exact (hv _ _ _ hf).uuid.trans (hal _ _ _ ht).uuid
      · simp
      · simp only [Bool.or_eq_true, decide_eq_true_eq, hcf, List.length_append,
          List.length_singleton]
        omega

/-- C102: an object that is no longer detected loses its track exactly when its count has run down to
the removal threshold; until then nothing about the track changes except its count. -/
theorem C102_unseen {visitor : Obj2 S₁ C₁ S₂ C₂ → Obj2 S₁ C₁ S₂ C₂ → Outcome (Obj2 S₁ C₁ S₂ C₂)}
    {align : ℝ → Obj2 S₁ C₁ S₂ C₂ → Outcome (Obj2 S₁ C₁ S₂ C₂)} {promo removal : ℕ} {o : ι}
    {l : List (ℝ × List (Obj2 S₁ C₁ S₂ C₂))} (hl : l ≠ [])
    (hseen : ∀ p ∈ l, ∀ d ∈ p.2, label (TrackOps.uuid d) ≠ o)
    {s : Solo (Obj2 S₁ C₁ S₂ C₂)} (hs : s.count ≤ promo) {x : Option (Solo (Obj2 S₁ C₁ S₂ C₂))}
    (h : SoloRun visitor makeTrack2 align promo removal label o (some s) l x) :
    x = if s.count ≤ removal + l.length then none
      else some ⟨s.track, s.count - l.length, s.confirmed⟩ := by
  generalize hx₀ : some s = x₀ at h
  induction h with
  | nil => exact absurd rfl hl
  | @snoc x' x'' l time ds d hrun hd hstep ih =>
    have hn := hseen (time, ds) (List.mem_append_right _ (List.mem_singleton_self _))
    cases d with
    | some d =>
      obtain ⟨hdm, hdo⟩ := (hd d).2 rfl
      exact absurd hdo (hn d hdm)
    | none =>
    have hx' : x' = if l = [] then some s else if s.count ≤ removal + l.length then none
        else some ⟨s.track, s.count - l.length, s.confirmed⟩ := by
      by_cases hne : l = []
      · subst hne
        rw [if_pos rfl, soloRun_nil hrun, hx₀]
      · rw [if_neg hne]
        exact ih hne (fun p hp => hseen p (List.mem_append_left _ hp))
    rw [List.length_append, List.length_singleton]
    generalize hk : l.length = k at *
    have hx2 : x' = none ∧ s.count ≤ removal + k ∨
        x' = some ⟨s.track, s.count - k, s.confirmed⟩ := by
      by_cases hne : l = []
      · subst hne
        right
        rw [hx', if_pos rfl, ← hk]
        rfl
      · rw [if_neg hne] at hx'
        by_cases hc : s.count ≤ removal + k
        · exact .inl ⟨by rw [hx', if_pos hc], hc⟩
        · exact .inr (by rw [hx', if_neg hc])
    rcases hx2 with ⟨rfl, hc⟩ | rfl
    · cases hstep
      rw [if_pos (by omega)]
    · cases hstep
      rw [Solo.keep]
      by_cases hc : s.count ≤ removal + (k + 1)
      · rw [if_pos hc, if_pos (by simp only; omega)]
      · rw [if_neg hc, if_neg (by simp only; omega)]
        have : decide (promo ≤ s.count - (k + 1)) = false :=
          decide_eq_false (by omega)
        simp only [Nat.sub_sub, this, Bool.or_false]

/-- C102: so an object that enters the scene and is detected in every period from then on has one
track, under one UUID, at the end of the run. -/
theorem C102_enters {n : ℕ} {m m' : Manager (Obj2 S₁ C₁ S₂ C₂)} (hr : ReachableIn _ _ n m)
    {visitor : Obj2 S₁ C₁ S₂ C₂ → Obj2 S₁ C₁ S₂ C₂ → Outcome (Obj2 S₁ C₁ S₂ C₂)}
    (hv : ∀ t d f, visitor t d = .ok f → SameObject t f)
    {align : ℝ → Obj2 S₁ C₁ S₂ C₂ → Outcome (Obj2 S₁ C₁ S₂ C₂)}
    (hal : ∀ time o o', align time o = .ok o' → SameObject o o')
    {l : List (ℝ × List (Obj2 S₁ C₁ S₂ C₂))} (hn : n + l.length + 3 < 2 ^ 64)
    {x₀ : ι → Option (Solo (Obj2 S₁ C₁ S₂ C₂))} (h₀ : ∀ o, Shows m label o (x₀ o))
    (h : ApartRun visitor makeTrack2 align label m l m') {o : ι}
    (hnone : ∀ t ∈ m.getAllTracks, label (TrackOps.uuid t) ≠ o)
    (h2 : m.removal.toNat < 2) (hp : m.removal.toNat < m.promo.toNat) (hl : l ≠ [])
    (hseen : ∀ p ∈ l, ∃ d ∈ p.2, label (TrackOps.uuid d) = o) :
    ∃ t p d, Only m'.getAllTracks label o (some t) ∧ l.head? = some p ∧ d ∈ p.2 ∧
      label (TrackOps.uuid d) = o ∧ TrackOps.uuid t = TrackOps.uuid d ∧
      m'.counter (TrackOps.uuid d) = min l.length m.promo.toNat ∧
      (m'.Confirmed (TrackOps.uuid d) ↔ 2 ≤ l.length ∧ m.promo.toNat ≤ l.length) := by
  obtain ⟨x, hx⟩ := C102_run hr hv hal hn h₀ h
  obtain ⟨hrun, hsh⟩ := hx o
  have hx0 : x₀ o = none := by
    rcases hc : x₀ o with _ | s
    · rfl
    · have := (h₀ o).1
      rw [hc] at this
      obtain ⟨h1, h3⟩ := (this s.track).2 rfl
      exact absurd h3 (hnone _ h1)
  rw [hx0] at hrun
  obtain ⟨s, hs, ⟨p, hp1, d, hp2, hp3, hp4⟩, hc, hcf⟩ := C102_seen hv hal h2 hp hl hseen hrun
  rw [hs] at hsh
  obtain ⟨h1, h3⟩ := hsh
  obtain ⟨h4, h5, -⟩ := h3 s rfl
  rw [hp4] at h4 h5
  exact ⟨s.track, p, d, h1, hp1, hp2, hp3, hp4, by rw [h4, hc], h5.trans hcf⟩

/-- C102 for the Euclidean score as computed, with a gate at `g`: it suffices that the poses of an
object's track and detection are at most `e` apart, those of different objects more than `D`, and
that `g` lies between `e` and `D` with a margin for the rounding. -/
theorem C102_positions (pose₁ : S₁ → FPose) (pose₂ : S₂ → FPose)
    {ts ds : List (Obj2 S₁ C₁ S₂ C₂)} {M : ℚ} (hM : 1 ≤ M) (hM' : M ≤ 2 ^ 60)
    {pos : Obj2 S₁ C₁ S₂ C₂ → Fin 3 → ℚ}
    (hp : ∀ o ∈ ts ++ ds, poseOf pose₁ pose₂ o = finPose (pos o) ∧ ∀ i, |pos o i| ≤ M)
    {gate : FP → Bool} {g : ℚ} (hg : ∀ q, gate (.fin q) = decide (g < q)) (hg31 : g ≤ 10 ^ 31)
    {e D : ℝ} (hown : ∀ t ∈ ts, ∀ d ∈ ds, label (TrackOps.uuid t) = label (TrackOps.uuid d) →
      t.isLeft = d.isLeft ∧ exactDist (pos t) (pos d) ≤ e)
    (hother : ∀ t ∈ ts, ∀ d ∈ ds, label (TrackOps.uuid t) ≠ label (TrackOps.uuid d) →
      t.isLeft = d.isLeft → D ≤ exactDist (pos t) (pos d))
    (he : e + (M / 2 ^ 22 + e / 2 ^ 21) ≤ g) (hDg : g < D - (M / 2 ^ 22 + D / 2 ^ 21))
    (hdef : ∃ t ∈ ts, ∃ d ∈ ds, label (TrackOps.uuid t) = label (TrackOps.uuid d) ∧
      (M / 2 ^ 21 < exactDist (pos t) (pos d) ∨ ∃ t' ∈ ts, ∃ d' ∈ ds,
        label (TrackOps.uuid t') = label (TrackOps.uuid d') ∧
        label (TrackOps.uuid t') ≠ label (TrackOps.uuid t))) :
    Apart label (euclidMetric pose₁ pose₂) gate ts ds := by
  have hmet : ∀ t ∈ ts, ∀ d ∈ ds, t.isLeft = d.isLeft → ∃ r : ℚ,
      euclidMetric pose₁ pose₂ t d = some (.fin r) ∧ 0 ≤ r ∧
        |(r : ℝ) - exactDist (pos t) (pos d)| ≤ M / 2 ^ 22 + exactDist (pos t) (pos d) / 2 ^ 21 := by
    intro t ht d hd hk
    obtain ⟨hpt, hbt⟩ := hp t (List.mem_append_left _ ht)
    obtain ⟨hpd, hbd⟩ := hp d (List.mem_append_right _ hd)
    obtain ⟨r, hr, herr⟩ := C85_accuracy M hM hM' (pos t) (pos d) hbt hbd
    have h0 : 0 ≤ r := by
      rcases C85_range (finPose (pos t)) (finPose (pos d)) with h | h | ⟨q, h, h0, -⟩
      · rw [hr] at h; cases h
      · rw [hr] at h; cases h
      · rw [hr] at h; cases h; exact h0
    refine ⟨r, ?_, h0, herr⟩
    rw [← hr, ← hpt, ← hpd]
    rcases t with t | t <;> rcases d with d | d <;> first | rfl | cases hk
  have hnone : ∀ t d : Obj2 S₁ C₁ S₂ C₂, t.isLeft ≠ d.isLeft → euclidMetric pose₁ pose₂ t d = none := by
    intro t d hk
    rcases t with t | t <;> rcases d with d | d <;> first | rfl | exact absurd rfl hk
  have hM0 : (0 : ℝ) ≤ M := by exact_mod_cast zero_le_one.trans hM
  have hsv : ∀ t ∈ ts, ∀ d ∈ ds, ∀ s, Survives (euclidMetric pose₁ pose₂) gate t d s →
      ∃ q, s = .fin q ∧ 0 ≤ q ∧ q ≤ g := by
    rintro t ht d hd s ⟨h1, h2⟩
    by_cases hk : t.isLeft = d.isLeft
    · obtain ⟨r, hr, h0, -⟩ := hmet t ht d hd hk
      rw [hr] at h1
      cases h1
      rw [hg, decide_eq_false_iff_not, not_lt] at h2
      exact ⟨r, rfl, h0, h2⟩
    · rw [hnone t d hk] at h1
      cases h1
  have hlab : ∀ t ∈ ts, ∀ d ∈ ds, label (TrackOps.uuid t) = label (TrackOps.uuid d) →
      ∃ r : ℚ, Survives (euclidMetric pose₁ pose₂) gate t d (.fin r) ∧ 0 ≤ r ∧
        |(r : ℝ) - exactDist (pos t) (pos d)| ≤ M / 2 ^ 22 + exactDist (pos t) (pos d) / 2 ^ 21 := by
    intro t ht d hd hl
    obtain ⟨hk, hle⟩ := hown t ht d hd hl
    obtain ⟨r, hr, h0, herr⟩ := hmet t ht d hd hk
    refine ⟨r, ⟨hr, ?_⟩, h0, herr⟩
    rw [hg, decide_eq_false_iff_not, not_lt]
    have := (abs_le.1 herr).2
    have : (r : ℝ) ≤ g := by
      have h2 : exactDist (pos t) (pos d) / 2 ^ 21 ≤ e / 2 ^ 21 :=
        div_le_div_of_nonneg_right hle (by norm_num)
      linarith
    exact_mod_cast this
  refine .inl ⟨?_, ?_, ?_⟩
  · intro t ht d hd
    constructor
    · rintro ⟨s, h1, h2⟩
      by_contra hl
      by_cases hk : t.isLeft = d.isLeft
      · have hle := hother t ht d hd hl hk
        obtain ⟨r, hr, h0, herr⟩ := hmet t ht d hd hk
        rw [hr] at h1
        cases h1
        rw [hg, decide_eq_false_iff_not, not_lt] at h2
        have h3 := (abs_le.1 herr).1
        have h4 : (r : ℝ) ≤ g := by exact_mod_cast h2
        generalize exactDist (pos t) (pos d) = x at *
        norm_num at h3 hDg
        linarith
      · rw [hnone t d hk] at h1
        cases h1
    · intro hl
      obtain ⟨r, hr, -⟩ := hlab t ht d hd hl
      exact ⟨_, hr⟩
  · intro t ht d hd s h
    obtain ⟨q, rfl, h0, hq⟩ := hsv t ht d hd s h
    exact ⟨q, rfl, h0, hq.trans hg31⟩
  · obtain ⟨t, ht, d, hd, hl, h⟩ := hdef
    obtain ⟨r, hr, h0, herr⟩ := hlab t ht d hd hl
    refine ⟨t, ht, d, hd, r, hr, ?_⟩
    rcases h with h | h
    · left
      have h3 := (abs_le.1 herr).1
      have : (0 : ℝ) < r := by
        generalize exactDist (pos t) (pos d) = x at *
        norm_num at h3 h
        linarith
      exact_mod_cast this
    · exact .inr h

end

/-! ### Examples

Objects on a line.  The last digit of an identifier says which object it stands for. -/

/-- which object a UUID stands for -/
def who (u : Uuid) : ℕ := (u.value.headD 0).val % 10

/-- the tracks of objects 1 and 2 -/
def twoTracks : List (Obj2 ℚ Unit ℚ Unit) := [at' 1 0, at' 2 10]

/-- a detection of object 1 and one of object 3 -/
def twoDetections : List (Obj2 ℚ Unit ℚ Unit) := [at' 11 (1 / 2), at' 13 20]

/-- detections of both objects -/
def bothDetected : List (Obj2 ℚ Unit ℚ Unit) := [at' 12 (21 / 2), at' 11 (1 / 2)]

/-- a gate at five metres -/
def gate5 : FP → Bool
  | .fin q => decide (5 < q)
  | _ => true

theorem poseX_metric (n k : Fin 256) (x y : ℚ) :
    euclidMetric poseX poseX (at' n x) (at' k y) = some (euclidF (poseX x) (poseX y)) := rfl

/-- the two lists can be told apart by the gate -/
theorem sample_apart : Apart who (euclidMetric poseX poseX) gate5 twoTracks twoDetections := by
  have h1 : euclidMetric poseX poseX (at' 1 0) (at' 11 (1 / 2)) = some (.fin (1 / 2)) := by
    rw [poseX_metric]; decide +kernel
  have h2 : euclidMetric poseX poseX (at' 1 0) (at' 13 20) = some (.fin 20) := by
    rw [poseX_metric]; decide +kernel
  have h3 : euclidMetric poseX poseX (at' 2 10) (at' 11 (1 / 2)) = some (.fin (19 / 2)) := by
    rw [poseX_metric]; decide +kernel
  have h4 : euclidMetric poseX poseX (at' 2 10) (at' 13 20) = some (.fin 10) := by
    rw [poseX_metric]; decide +kernel
  refine .inl ⟨?_, ?_, ?_⟩
  · simp only [twoTracks, twoDetections, List.mem_cons, List.not_mem_nil, or_false, forall_eq_or_imp,
      forall_eq, Survives, h1, h2, h3, h4, Option.some.injEq, exists_eq_left']
    decide +kernel
  · simp only [twoTracks, twoDetections, List.mem_cons, List.not_mem_nil, or_false, forall_eq_or_imp,
      forall_eq, Survives, h1, h2, h3, h4, Option.some.injEq, and_imp, forall_eq']
    refine ⟨⟨fun _ => ⟨_, rfl, by norm_num, by norm_num⟩, fun _ => ⟨_, rfl, by norm_num, by norm_num⟩⟩,
      fun _ => ⟨_, rfl, by norm_num, by norm_num⟩, fun _ => ⟨_, rfl, by norm_num, by norm_num⟩⟩
  · exact ⟨at' 1 0, by simp [twoTracks], at' 11 (1 / 2), by simp [twoDetections], 1 / 2,
      ⟨h1, by decide +kernel⟩, .inl (by norm_num)⟩

/-- `C102_association`: track 1 is associated with detection 11 and with nothing else, track 2 with
nothing -/
example {solve : Solver} (hs : IsOptimalSolver solve) :
    ∃ a, associateStep solve (euclidMetric poseX poseX) gate5 twoTracks twoDetections = .ok a ∧
      a.find? ⟨[1]⟩ = some [⟨[11]⟩] ∧ a.find? ⟨[2]⟩ = none := by
  obtain ⟨a, ha, h, h'⟩ := C102_association (label := who) (by decide +kernel) (by decide +kernel)
    (by decide) hs sample_apart
  refine ⟨a, ha, (h _ _).2 ⟨at' 1 0, by simp [twoTracks], at' 11 (1 / 2), by simp [twoDetections],
    rfl, rfl, by decide +kernel⟩, ?_⟩
  by_contra hne
  obtain ⟨l, hl⟩ := Option.ne_none_iff_exists'.1 hne
  obtain ⟨v, rfl⟩ := h' _ _ hl
  obtain ⟨t, -, d, hd, -, rfl, hw⟩ := (h _ _).1 hl
  simp only [twoDetections, List.mem_cons, List.not_mem_nil, or_false] at hd
  rcases hd with rfl | rfl <;> revert hw <;> decide +kernel

theorem exactDist_line (x y : ℚ) : exactDist ![x, 0, 0] ![y, 0, 0] = |(x : ℝ) - y| := by
  simp [exactDist, Real.sqrt_sq_eq_abs]

/-- `C102_positions` for the same lists: an object moves at most a metre, different objects are at
least nine metres apart -/
example : Apart who (euclidMetric poseX poseX) gate5 twoTracks twoDetections := by
  refine C102_positions poseX poseX (M := 20) (by norm_num) (by norm_num)
    (pos := fun o => ![o.elim DynObj.state DynObj.state, 0, 0]) ?_ (g := 5) (fun q => rfl)
    (by norm_num) (e := 1) (D := 9) ?_ ?_ (by norm_num) (by norm_num) ?_
  · simp only [twoTracks, twoDetections, List.cons_append, List.nil_append, List.mem_cons,
      List.not_mem_nil, or_false, forall_eq_or_imp, forall_eq]
    refine ⟨⟨rfl, ?_⟩, ⟨rfl, ?_⟩, ⟨rfl, ?_⟩, rfl, ?_⟩ <;> intro i <;> fin_cases i <;>
      simp [at'] <;> norm_num [abs_of_pos]
  · simp only [twoTracks, twoDetections, List.mem_cons, List.not_mem_nil, or_false, forall_eq_or_imp,
      forall_eq, exactDist_line]
    refine ⟨⟨fun _ => ⟨rfl, ?_⟩, fun h => absurd h (by decide +kernel)⟩,
      fun h => absurd h (by decide +kernel), fun h => absurd h (by decide +kernel)⟩
    simp only [at', Sum.elim_inl]
    norm_num [abs_le]
  · simp only [twoTracks, twoDetections, List.mem_cons, List.not_mem_nil, or_false, forall_eq_or_imp,
      forall_eq, exactDist_line]
    refine ⟨⟨fun h => (h (by decide +kernel)).elim, fun _ _ => ?_⟩, fun _ _ => ?_, fun _ _ => ?_⟩ <;>
      simp only [at', Sum.elim_inl] <;> norm_num [le_abs]
  · refine ⟨at' 1 0, by simp [twoTracks], at' 11 (1 / 2), by simp [twoDetections],
      by decide +kernel, .inl ?_⟩
    simp only [exactDist_line, at', Sum.elim_inl]
    rw [lt_abs]
    norm_num

/-- `C102_association` without a gate: both objects are detected -/
example {solve : Solver} (hs : IsOptimalSolver solve) :
    ∃ a, associateStep solve (euclidMetric poseX poseX) (fun _ => false) twoTracks bothDetected = .ok a ∧
      a.find? ⟨[1]⟩ = some [⟨[11]⟩] ∧ a.find? ⟨[2]⟩ = some [⟨[12]⟩] := by
  have h1 : euclidMetric poseX poseX (at' 1 0) (at' 12 (21 / 2)) = some (.fin (21 / 2)) := by
    rw [poseX_metric]; decide +kernel
  have h2 : euclidMetric poseX poseX (at' 1 0) (at' 11 (1 / 2)) = some (.fin (1 / 2)) := by
    rw [poseX_metric]; decide +kernel
  have h3 : euclidMetric poseX poseX (at' 2 10) (at' 12 (21 / 2)) = some (.fin (1 / 2)) := by
    rw [poseX_metric]; decide +kernel
  have h4 : euclidMetric poseX poseX (at' 2 10) (at' 11 (1 / 2)) = some (.fin (19 / 2)) := by
    rw [poseX_metric]; decide +kernel
  have hap : Apart who (euclidMetric poseX poseX) (fun _ => false) twoTracks bothDetected := by
    refine .inr ⟨21 / 2, by unfold fltMaxQ; norm_num, ?_, ?_, ?_, ?_⟩
    · simp only [twoTracks, bothDetected, List.mem_cons, List.not_mem_nil, or_false,
        forall_eq_or_imp, forall_eq, Survives, h1, h2, h3, h4, Option.some.injEq, FP.fin.injEq]
      refine ⟨⟨⟨_, ⟨rfl, trivial⟩, ?_⟩, _, ⟨rfl, trivial⟩, ?_⟩, ⟨_, ⟨rfl, trivial⟩, ?_⟩, _, ⟨rfl, trivial⟩, ?_⟩ <;>
        norm_num
    · exact ⟨at' 1 0, by simp [twoTracks], at' 12 (21 / 2), by simp [bothDetected], 21 / 2,
        ⟨h1, rfl⟩, by norm_num⟩
    · left
      simp only [twoTracks, bothDetected, List.mem_cons, List.not_mem_nil, or_false,
        forall_eq_or_imp, forall_eq]
      exact ⟨⟨at' 11 (1 / 2), .inr rfl, by decide +kernel⟩, at' 12 (21 / 2), .inl rfl, by decide +kernel⟩
    · intro t ht d hd t' ht' d' hd' q q' hl hl' hq hq'
      have hq1 : q = 1 / 2 := by
        simp only [twoTracks, bothDetected, List.mem_cons, List.not_mem_nil, or_false] at ht hd
        have := hq.1
        rcases ht with rfl | rfl <;> rcases hd with rfl | rfl
        · exact absurd hl (by decide +kernel)
        · rw [h2] at this; cases this; rfl
        · rw [h3] at this; cases this; rfl
        · exact absurd hl (by decide +kernel)
      have hq2 : 19 / 2 ≤ q' := by
        simp only [twoTracks, bothDetected, List.mem_cons, List.not_mem_nil, or_false] at ht' hd'
        have := hq'.1
        rcases ht' with rfl | rfl <;> rcases hd' with rfl | rfl
        · rw [h1] at this; cases this; norm_num
        · exact absurd (by decide +kernel) hl'
        · exact absurd (by decide +kernel) hl'
        · rw [h4] at this; cases this; norm_num
      rw [hq1]
      linarith
  obtain ⟨a, ha, h, -⟩ := C102_association (label := who) (by decide +kernel) (by decide +kernel)
    (by decide) hs hap
  exact ⟨a, ha, (h _ _).2 ⟨at' 1 0, by simp [twoTracks], at' 11 (1 / 2), by simp [bothDetected],
    rfl, rfl, by decide +kernel⟩, (h _ _).2 ⟨at' 2 10, by simp [twoTracks], at' 12 (21 / 2),
    by simp [bothDetected], rfl, rfl, by decide +kernel⟩⟩

/-- `C102_forced`: without the gate, track 2 or track 1 is associated with another object -/
example {solve : Solver} (hs : IsPermSolver solve) {a : AssociationMap}
    (ha : associateStep solve (euclidMetric poseX poseX) (fun _ => false) twoTracks twoDetections = .ok a) :
    ∃ u v, a.find? u = some [v] ∧ who u ≠ who v := by
  refine C102_forced (label := who) (by decide +kernel) (by decide +kernel) (by decide) hs ?_
    (t₀ := at' 2 10) (d₀ := at' 13 20) (by simp [twoTracks]) (by simp [twoDetections])
    (by decide +kernel) (by decide +kernel) ha
  simp only [twoTracks, twoDetections, List.mem_cons, List.not_mem_nil, or_false, forall_eq_or_imp,
    forall_eq, Survives, poseX_metric, Option.some.injEq, and_true, exists_eq', and_self]

/-- a manager with the tracks of objects 1 and 2 -/
noncomputable def twoManager : Manager (Obj2 ℚ Unit ℚ Unit) :=
  (addTentativeTrack (at' 1 0) (addTentativeTrack (at' 2 10) (Manager.new 3 0)).1).1

theorem twoManager_reachable : ReachableIn _ _ 0 twoManager := by
  have h0 : ReachableIn _ _ 0 (Manager.new 3 0 : Manager (Obj2 ℚ Unit ℚ Unit)) :=
    ⟨3, 0, [], [], .nil (Reordered.refl _), rfl⟩
  have h1 := reachable_step h0 (.add (at' 2 10))
  exact reachable_step h1 (.add (at' 1 0))

theorem twoManager_tracks : twoManager.getAllTracks = twoTracks := rfl

/-- what `twoManager` shows -/
def twoSolos : ℕ → Option (Solo (Obj2 ℚ Unit ℚ Unit))
  | 1 => some ⟨at' 1 0, 1, false⟩
  | 2 => some ⟨at' 2 10, 1, false⟩
  | _ => none

theorem twoManager_lists : twoManager.getConfirmedTracks = .ok [] ∧
    twoManager.getTentativeTracks = .ok twoTracks := ⟨rfl, rfl⟩

theorem twoManager_shows (o : ℕ) : Shows twoManager who o (twoSolos o) := by
  have hw1 : who (TrackOps.uuid (at' 1 0)) = 1 := rfl
  have hw2 : who (TrackOps.uuid (at' 2 10)) = 2 := rfl
  have hmem : ∀ x, x ∈ twoManager.getAllTracks ↔ x = at' 1 0 ∨ x = at' 2 10 := by
    intro x; rw [twoManager_tracks]; simp [twoTracks]
  have hconf : ∀ u, ¬ twoManager.Confirmed u := by
    rintro u ⟨l, hl, t, ht, -⟩
    rw [twoManager_lists.1] at hl
    cases hl
    cases ht
  have hent : ∀ x ∈ twoTracks, twoManager.Tentative (TrackOps.uuid x) :=
    fun x hx => ⟨_, twoManager_lists.2, x, hx, rfl⟩
  match o with
  | 1 =>
    refine ⟨fun x => ?_, fun s hs => ?_⟩
    · rw [hmem]
      constructor
      · rintro ⟨rfl | rfl, h⟩
        · rfl
        · rw [hw2] at h; omega
      · rintro rfl
        exact ⟨.inl rfl, hw1⟩
    · cases hs
      exact ⟨rfl, ⟨fun h => absurd h (hconf _), fun h => by cases h⟩, fun _ => rfl,
        fun _ => hent _ (by simp [twoTracks])⟩
  | 2 =>
    refine ⟨fun x => ?_, fun s hs => ?_⟩
    · rw [hmem]
      constructor
      · rintro ⟨rfl | rfl, h⟩
        · rw [hw1] at h; omega
        · rfl
      · rintro rfl
        exact ⟨.inr rfl, hw2⟩
    · cases hs
      exact ⟨rfl, ⟨fun h => absurd h (hconf _), fun h => by cases h⟩, fun _ => rfl,
        fun _ => hent _ (by simp [twoTracks])⟩
  | 0 =>
    refine ⟨fun x hx => ?_, fun s hs => by cases hs⟩
    rcases (hmem x).1 hx with rfl | rfl
    · rw [hw1]; omega
    · rw [hw2]; omega
  | k + 3 =>
    refine ⟨fun x hx => ?_, fun s hs => by cases hs⟩
    rcases (hmem x).1 hx with rfl | rfl
    · rw [hw1]; omega
    · rw [hw2]; omega

/-- one period: object 1 is detected again, object 2 is missed, object 3 appears -/
theorem sample_apartRun {solve : Solver} (hs : IsOptimalSolver solve) :
    ApartRun (fun t _ => .ok t) makeTrack2 (fun _ o => .ok o) who twoManager [(5, twoDetections)]
      (period solve (euclidMetric poseX poseX) gate5 (fun t _ => .ok t) makeTrack2 (fun o => .ok o)
        twoDetections twoManager).1 := by
  refine ApartRun.snoc (l := []) 5 twoDetections (.nil _) hs (by decide +kernel) (by
    rw [twoManager_tracks]; decide) (ts' := twoTracks) (ds' := twoDetections) ?_ ?_ sample_apart ?_
  · rw [twoManager_tracks]
    exact List.forall₂_same.2 fun _ _ => rfl
  · exact List.forall₂_same.2 fun _ _ => rfl
  · intro t _ d _ _
    trivial

/-- `C102_run`: object 1 keeps its track with count 2, object 2 loses its track, object 3 has a new
track with count 1; nothing is confirmed -/
example {solve : Solver} (hs : IsOptimalSolver solve) :
    let m' := (period solve (euclidMetric poseX poseX) gate5 (fun t _ => .ok t) makeTrack2
      (fun o => .ok o) twoDetections twoManager).1
    Shows m' who 1 (some ⟨at' 1 0, 2, false⟩) ∧ Shows m' who 2 none ∧
      Shows m' who 3 (some ⟨at' 13 20, 1, false⟩) := by
  obtain ⟨x, hx⟩ := C102_run twoManager_reachable (fun t d f h => by cases h; exact ⟨rfl, rfl, rfl⟩)
    (fun _ o o' h => by cases h; exact ⟨rfl, rfl, rfl⟩) (by simp) twoManager_shows
    (sample_apartRun hs)
  have hds : ∀ o d, Only twoDetections who o d → d = if o = 1 then some (at' 11 (1 / 2)) else
      if o = 3 then some (at' 13 20) else none := by
    intro o d hd
    have h11 : who (TrackOps.uuid (at' 11 (1 / 2))) = 1 := rfl
    have h13 : who (TrackOps.uuid (at' 13 20)) = 3 := rfl
    have m11 : at' 11 (1 / 2) ∈ twoDetections := by simp [twoDetections]
    have m13 : at' 13 20 ∈ twoDetections := by simp [twoDetections]
    cases d with
    | none =>
      have h1 := hd _ m11
      have h3 := hd _ m13
      rw [h11] at h1
      rw [h13] at h3
      rw [if_neg (Ne.symm h1), if_neg (Ne.symm h3)]
    | some d =>
      obtain ⟨hm, hl⟩ := (hd d).2 rfl
      simp only [twoDetections, List.mem_cons, List.not_mem_nil, or_false] at hm
      rcases hm with rfl | rfl
      · rw [h11] at hl; subst hl; rfl
      · rw [h13] at hl; subst hl; rfl
  have hstep : ∀ o, SoloStep (fun t _ => .ok t) makeTrack2 (fun o => .ok o) 3 0 (twoSolos o)
      (if o = 1 then some (at' 11 (1 / 2)) else if o = 3 then some (at' 13 20) else none) (x o) := by
    intro o
    have h := (hx o).1
    generalize hL : [((5 : ℝ), twoDetections)] = L at h
    generalize hX : x o = X at h
    cases h with
    | nil => cases hL
    | @snoc x' x'' l time ds d hr hd hst =>
      obtain ⟨h1, h2⟩ := List.append_inj' (s₁ := []) hL rfl
      subst h1
      cases h2
      rw [soloRun_nil hr] at hst
      rw [← hds o d hd]
      exact hst
  refine ⟨?_, ?_, ?_⟩
  · have h := hstep 1
    have e := (hx 1).2
    generalize x 1 = X at h e
    cases h with
    | hit ht hy hf =>
      cases ht; cases hf; exact e
  · have h := hstep 2
    have e := (hx 2).2
    generalize x 2 = X at h e
    cases h
    exact e
  · have h := hstep 3
    have e := (hx 3).2
    generalize x 3 = X at h e
    cases h with
    | start hy => cases hy; exact e

/-- `C102_completes` for the same period -/
example {solve : Solver} (hs : IsOptimalSolver solve) :
    (period solve (euclidMetric poseX poseX) gate5 (fun t _ => .ok t) makeTrack2 (fun o => .ok o)
      twoDetections twoManager).2.IsOk := by
  obtain ⟨m', a, h, -⟩ := C102_period (label := who) twoManager_reachable (by simp) hs
    (visitor := fun t _ => .ok t) (fun t d f h => by cases h; exact ⟨rfl, rfl, rfl⟩)
    (align := fun o => .ok o) (fun o o' h => by cases h; exact ⟨rfl, rfl, rfl⟩)
    (fun o => ⟨_, (twoManager_shows o).1⟩) (by decide +kernel) (ds := twoDetections)
    (by rw [twoManager_tracks]; decide) (ts' := twoTracks) (ds' := twoDetections)
    (by rw [twoManager_tracks]; exact List.forall₂_same.2 fun _ _ => rfl)
    (List.forall₂_same.2 fun _ _ => rfl) sample_apart (fun _ _ _ _ _ => trivial)
  rw [h]
  trivial

/-- `C102_enters`: object 3 -/
example {solve : Solver} (hs : IsOptimalSolver solve) :
    ((period solve (euclidMetric poseX poseX) gate5 (fun t _ => .ok t) makeTrack2
      (fun o => .ok o) twoDetections twoManager).1).counter ⟨[13]⟩ = 1 := by
  obtain ⟨t, p, d, -, hp, hd, hl, -, hc, -⟩ := C102_enters twoManager_reachable
    (fun t d f h => by cases h; exact ⟨rfl, rfl, rfl⟩)
    (fun _ o o' h => by cases h; exact ⟨rfl, rfl, rfl⟩) (by simp) twoManager_shows
    (sample_apartRun hs) (o := 3) (by rw [twoManager_tracks]; decide +kernel) (by decide) (by decide)
    (by simp) (by
      simp only [List.mem_singleton, forall_eq]
      exact ⟨at' 13 20, by simp [twoDetections], rfl⟩)
  cases hp
  simp only [twoDetections, List.mem_cons, List.not_mem_nil, or_false] at hd
  rcases hd with rfl | rfl
  · exact absurd hl (by decide +kernel)
  · exact hc

theorem sample_only : Only twoDetections who 3 (some (at' 13 20)) ∧ Only bothDetected who 3 none ∧
    Only ([] : List (Obj2 ℚ Unit ℚ Unit)) who 3 none := by
  refine ⟨fun x => ⟨?_, ?_⟩, (show ∀ x ∈ bothDetected, who (TrackOps.uuid x) ≠ 3 by decide +kernel),
    fun _ h => by cases h⟩
  · simp only [twoDetections, List.mem_cons, List.not_mem_nil, or_false]
    rintro ⟨rfl | rfl, h⟩
    · exact absurd h (by decide +kernel)
    · rfl
  · rintro rfl
    exact ⟨by simp [twoDetections], rfl⟩

/-- `C102_seen` and `C102_unseen`: three periods with a detection of object 3, then three without
(thresholds 2 and 0); there are such runs -/
example : ∃ x y : Option (Solo (Obj2 ℚ Unit ℚ Unit)),
    SoloRun (fun t _ => .ok t) makeTrack2 (fun _ o => .ok o) 2 0 who 3 none
      [(1, twoDetections), (2, twoDetections), (3, twoDetections)] x ∧
    SoloRun (fun t _ => .ok t) makeTrack2 (fun _ o => .ok o) 2 0 who 3 x
      [(4, bothDetected), (5, []), (6, bothDetected)] y ∧
    (∃ s, x = some s ∧ s.count = 2 ∧ s.confirmed = true) ∧ y = none := by
  have h : SoloRun (fun t _ => .ok t) makeTrack2 (fun _ o => .ok o) 2 0 who 3 none
      [(1, twoDetections), (2, twoDetections), (3, twoDetections)]
      (some (⟨at' 13 20, 2, true⟩ : Solo (Obj2 ℚ Unit ℚ Unit))) :=
    .snoc (l := [_, _]) (.snoc (l := [_]) (.snoc (l := []) (.nil _) sample_only.1 (.start rfl))
      sample_only.1 (.hit rfl rfl rfl)) sample_only.1 (.hit rfl rfl rfl)
  have h' : SoloRun (fun t _ => .ok t) makeTrack2 (fun _ o => .ok o) 2 0 who 3
      (some (⟨at' 13 20, 2, true⟩ : Solo (Obj2 ℚ Unit ℚ Unit)))
      [(4, bothDetected), (5, []), (6, bothDetected)] none :=
    .snoc (l := [_, _]) (.snoc (l := [_]) (.snoc (l := []) (.nil _) sample_only.2.1 .miss)
      sample_only.2.2 .miss) sample_only.2.1 .idle
  refine ⟨_, _, h, h', ?_, ?_⟩
  · obtain ⟨s, hs, -, hc, hf⟩ := C102_seen (fun t d f h => by cases h; exact ⟨rfl, rfl, rfl⟩)
      (fun _ o o' h => by cases h; exact ⟨rfl, rfl, rfl⟩) (by decide) (by decide) (by simp)
      (by
        simp only [List.mem_cons, List.not_mem_nil, or_false, forall_eq_or_imp, forall_eq]
        have := (⟨at' 13 20, by simp [twoDetections], rfl⟩ :
          ∃ d ∈ twoDetections, who (TrackOps.uuid d) = 3)
        exact ⟨this, this, this⟩) h
    exact ⟨s, hs, hc, hf.2 (by simp)⟩
  · have := C102_unseen (List.cons_ne_nil _ _) ?_ (le_refl 2) h'
    · exact this.trans (if_pos (by simp))
    simp only [List.mem_cons, List.not_mem_nil, or_false, forall_eq_or_imp, forall_eq]
    exact ⟨sample_only.2.1, fun _ h => h.elim, sample_only.2.1⟩

/-! ### The gap is needed -/

/-- a solver that tries all permutations and keeps the last best one -/
def bruteSolver : Solver := fun n c =>
  List.ofFn fun i => ((((permsOfList (List.finRange n)).foldl
    (fun b σ => if ∑ i, c i (b i) ≤ ∑ i, c i (σ i) then σ else b) 1) i).1 : ℤ)

theorem bruteSolver_optimal : IsOptimalSolver bruteSolver := by
  intro n c
  refine ⟨_, rfl, fun τ => ?_⟩
  have key : ∀ (l : List (Equiv.Perm (Fin n))) (b : Equiv.Perm (Fin n)),
      ∀ τ, τ = b ∨ τ ∈ l → ∑ i, c i (τ i) ≤ ∑ i, c i ((l.foldl
        (fun b σ => if ∑ i, c i (b i) ≤ ∑ i, c i (σ i) then σ else b) b) i) := by
    intro l
    induction l with
    | nil => rintro b τ (rfl | h); exacts [le_rfl, by cases h]
    | cons σ l ih =>
      intro b τ h
      rw [List.foldl_cons]
      by_cases hc : ∑ i, c i (b i) ≤ ∑ i, c i (σ i)
      · rw [if_pos hc]
        rcases h with rfl | h
        · exact hc.trans (ih σ σ (.inl rfl))
        · exact ih σ τ (List.mem_cons.1 h)
      · rw [if_neg hc]
        rcases h with rfl | h
        · exact ih τ τ (.inl rfl)
        · rcases List.mem_cons.1 h with rfl | h
          · exact (not_le.1 hc).le.trans (ih b b (.inl rfl))
          · exact ih b τ (.inr h)
  exact key _ 1 τ (.inr (mem_permsOfList_iff.2 fun _ => List.mem_finRange _))

/-- tracks 1 and 2 and detections of 1, 2 and 3 -/
def closeTracks : List (Obj2 ℚ Unit ℚ Unit) := [at' 1 (-1 / 4), at' 2 (1 / 4 + 1 / 2 ^ 25)]

/-- see `closeTracks` -/
def closeDetections : List (Obj2 ℚ Unit ℚ Unit) :=
  [at' 11 0, at' 12 (1 / 2 ^ 25), at' 13 (3 / 4)]

/-- C102, why a gap is asked for: without gate, every track has its own detection, every score within
an object is smaller than every score between different objects, and yet a solver that keeps the
contract exchanges the two objects, as the costs are equal after rounding. -/
theorem C102_gap_needed :
    ∃ solve, IsOptimalSolver solve ∧
      (∀ t ∈ closeTracks, ∀ d ∈ closeDetections, ∃ q, 0 < q ∧ q ≤ 1 ∧
        Survives (euclidMetric poseX poseX) (fun _ => false) t d (.fin q)) ∧
      (∀ t ∈ closeTracks, ∃ d ∈ closeDetections, who (TrackOps.uuid t) = who (TrackOps.uuid d)) ∧
      (∀ t ∈ closeTracks, ∀ d ∈ closeDetections, ∀ t' ∈ closeTracks, ∀ d' ∈ closeDetections, ∀ q q',
        who (TrackOps.uuid t) = who (TrackOps.uuid d) →
        who (TrackOps.uuid t') ≠ who (TrackOps.uuid d') →
        Survives (euclidMetric poseX poseX) (fun _ => false) t d (.fin q) →
        Survives (euclidMetric poseX poseX) (fun _ => false) t' d' (.fin q') → q < q') ∧
      ∃ a, associateStep solve (euclidMetric poseX poseX) (fun _ => false) closeTracks closeDetections =
        .ok a ∧ a.find? ⟨[1]⟩ = some [⟨[12]⟩] ∧ a.find? ⟨[2]⟩ = some [⟨[11]⟩] := by
  have h11 : euclidF (poseX (-1 / 4)) (poseX 0) = .fin (1 / 4) := by decide +kernel
  have h12 : euclidF (poseX (-1 / 4)) (poseX (1 / 2 ^ 25)) = .fin (1 / 4 + 1 / 2 ^ 25) := by
    decide +kernel
  have h13 : euclidF (poseX (-1 / 4)) (poseX (3 / 4)) = .fin 1 := by decide +kernel
  have h21 : euclidF (poseX (1 / 4 + 1 / 2 ^ 25)) (poseX 0) = .fin (1 / 4 + 1 / 2 ^ 25) := by
    decide +kernel
  have h22 : euclidF (poseX (1 / 4 + 1 / 2 ^ 25)) (poseX (1 / 2 ^ 25)) = .fin (1 / 4) := by
    decide +kernel
  have h23 : euclidF (poseX (1 / 4 + 1 / 2 ^ 25)) (poseX (3 / 4)) = .fin (1 / 2 - 1 / 2 ^ 25) := by
    decide +kernel
  have hown : ∀ t ∈ closeTracks, ∀ d ∈ closeDetections, ∀ q,
      Survives (euclidMetric poseX poseX) (fun _ => false) t d (.fin q) →
      (who (TrackOps.uuid t) = who (TrackOps.uuid d) ∧ q = 1 / 4) ∨
        (who (TrackOps.uuid t) ≠ who (TrackOps.uuid d) ∧ 1 / 4 + 1 / 2 ^ 25 ≤ q) := by
    simp only [closeTracks, closeDetections, List.mem_cons, List.not_mem_nil, or_false,
      forall_eq_or_imp, forall_eq, Survives, poseX_metric, h11, h12, h13, h21, h22, h23,
      Option.some.injEq, FP.fin.injEq, and_true, forall_eq']
    refine ⟨⟨.inl (by decide +kernel), .inr ⟨by decide +kernel, le_rfl⟩,
      .inr ⟨by decide +kernel, by norm_num⟩⟩, .inr ⟨by decide +kernel, le_rfl⟩,
      .inl (by decide +kernel), .inr ⟨by decide +kernel, by norm_num⟩⟩
  refine ⟨bruteSolver, bruteSolver_optimal, ?_, ?_, ?_, ?_⟩
  · simp only [closeTracks, closeDetections, List.mem_cons, List.not_mem_nil, or_false,
      forall_eq_or_imp, forall_eq, Survives, poseX_metric, h11, h12, h13, h21, h22, h23,
      Option.some.injEq, FP.fin.injEq, and_true]
    refine ⟨⟨⟨_, ?_, ?_, rfl⟩, ⟨_, ?_, ?_, rfl⟩, _, ?_, ?_, rfl⟩, ⟨_, ?_, ?_, rfl⟩, ⟨_, ?_, ?_, rfl⟩,
      _, ?_, ?_, rfl⟩ <;> norm_num
  · simp only [closeTracks, closeDetections, List.mem_cons, List.not_mem_nil, or_false,
      forall_eq_or_imp, forall_eq]
    exact ⟨⟨_, .inl rfl, by decide +kernel⟩, _, .inr (.inl rfl), by decide +kernel⟩
  · intro t ht d hd t' ht' d' hd' q q' hl hl' hq hq'
    rcases hown t ht d hd q hq with ⟨-, rfl⟩ | ⟨h, -⟩
    · rcases hown t' ht' d' hd' q' hq' with ⟨h, -⟩ | ⟨-, h⟩
      · exact absurd h hl'
      · exact lt_of_lt_of_le (by norm_num) h
    · exact absurd hl h
  · have h : (match associateStep bruteSolver (euclidMetric poseX poseX) (fun _ => false)
        closeTracks closeDetections with
        | .ok a => decide (a.find? ⟨[1]⟩ = some [⟨[12]⟩] ∧ a.find? ⟨[2]⟩ = some [⟨[11]⟩])
        | _ => false) = true := by decide +kernel
    revert h
    cases associateStep bruteSolver (euclidMetric poseX poseX) (fun _ => false)
        closeTracks closeDetections with
    | ok a => exact fun h => ⟨a, rfl, of_decide_eq_true h⟩
    | throw e => intro h; cases h
    | ub w => intro h; cases h

end Mot.Props
