import Verif.Proofs.Period
import Verif.Props.Pipeline
import Verif.Props.Ukf
/-!
# Properties of a period of the pipeline (C100)
-/

namespace Mot.Props

open Mot Spec Manager

section
variable {S₁ C₁ S₂ C₂ : Type}

/-- C100: a completed period.  The association is that of the predicted objects.  A detection without
association starts a tentative track with its predicted estimate; an associated track gets the
result of fusing the predicted track with the predicted detection; every other track keeps the
estimate and the time it had before the prediction.  Counts, removal and promotion are as in C69. -/
theorem C100_period {n : ℕ} {m m' : Manager (Obj2 S₁ C₁ S₂ C₂)} (hr : ReachableIn _ _ n m)
    (hn : n + 3 < 2 ^ 64) {solve : Solver} (hs : IsPermSolver solve)
    {metric : Obj2 S₁ C₁ S₂ C₂ → Obj2 S₁ C₁ S₂ C₂ → Option FP} {gate : FP → Bool}
    {visitor : Obj2 S₁ C₁ S₂ C₂ → Obj2 S₁ C₁ S₂ C₂ → Outcome (Obj2 S₁ C₁ S₂ C₂)}
    (hv : ∀ t d f, visitor t d = .ok f → SameObject t f)
    {align : Obj2 S₁ C₁ S₂ C₂ → Outcome (Obj2 S₁ C₁ S₂ C₂)}
    (hal : ∀ o o', align o = .ok o' → SameObject o o') {ds : List (Obj2 S₁ C₁ S₂ C₂)}
    (hds : (ds.map TrackOps.uuid).Nodup) (hbig : m.getAllTracks.length * ds.length < 2 ^ 64)
    {a : AssociationMap}
    (hp : period solve metric gate visitor makeTrack2 align ds m = (m', .ok a)) :
    (∃ ds' ts', List.Forall₂ (fun o o' => align o = .ok o') ds ds' ∧
      List.Forall₂ (fun o o' => align o = .ok o') m.getAllTracks ts' ∧
      associateStep solve metric gate ts' ds' = .ok a) ∧
    (∀ d ∈ ds, Unassociated a d → ∃ y, align d = .ok y ∧
      (∀ t', m'.HasTrack (TrackOps.uuid d) t' ↔ t' = makeTrack2 y) ∧
      m'.Tentative (TrackOps.uuid d) ∧ m'.counter (TrackOps.uuid d) = 1) ∧
    (∀ u ∈ a.keys, ¬ Starts a ds u → ∃ t x, ∃ d ∈ ds, ∃ y f, m.HasTrack u t ∧
      align t = .ok x ∧ align d = .ok y ∧ a.find? u = some [TrackOps.uuid d] ∧
      visitor x y = .ok f ∧ ∀ t', m'.HasTrack u t' ↔
        t' = f ∧ m.removal.toNat < min (m.counter u + 1) m.promo.toNat) ∧
    (∀ u, u ∉ a.keys → ¬ Starts a ds u → ∀ t', m'.HasTrack u t' ↔
      m.HasTrack u t' ∧ m.removal.toNat < m.counter u - 1) ∧
    (∀ u, m'.Managed u → ¬ Starts a ds u → m'.counter u =
      if u ∈ a.keys then min (m.counter u + 1) m.promo.toNat else m.counter u - 1) ∧
    (∀ u, ¬ Starts a ds u →
      (m'.Confirmed u ↔ m'.Managed u ∧ (m.Confirmed u ∨ m.promo.toNat ≤ m'.counter u))) ∧
    m'.promo.toNat = m.promo.toNat ∧ m'.removal.toNat = m.removal.toNat := by
  obtain ⟨T, h⟩ := reachable_rel hr (by omega)
  obtain ⟨T', h', hpr, hrem, hst, hnot, hin⟩ := period_rel hn h hs hv hal hds hbig hp
  have hns : ∀ u, ¬ Starts a ds u → ∀ d ∈ ds, TrackOps.uuid d = u → ¬ Unassociated a d :=
    fun u hu d hd e ha => hu ⟨d, hd, e, ha⟩
  have hentry : ∀ u e', ¬ Starts a ds u → T'.entry u = some e' → ∃ e, T.entry u = some e ∧
      e'.count = Table.newCount T.promo (decide (u ∈ a.keys)) e.count ∧
      e'.confirmed = (e.confirmed || decide (T.promo ≤ e'.count)) := by
    intro u e' hs he'
    by_cases hu : u ∈ a.keys
    · obtain ⟨e, x, d, -, y, f, he, -, -, -, -, hT⟩ := hin u (hns u hs) hu
      rw [hT] at he'
      simp only [Table.updateEntry] at he'
      split at he'
      · cases he'
      · cases he'
        exact ⟨e, he, by simp only [decide_eq_true hu], rfl⟩
    · rw [hnot u (hns u hs) hu] at he'
      obtain ⟨e, he, hv⟩ := Option.bind_eq_some_iff.1 he'
      simp only [Table.updateEntry] at hv
      split at hv
      · cases hv
      · cases hv
        exact ⟨e, he, by simp only [decide_eq_false hu], rfl⟩
  refine ⟨?_, ?_, ?_, ?_, ?_, ?_, ?_, ?_⟩
  · obtain ⟨ds', ts', m₁, h1, h2, h3, -⟩ := period_ok.1 hp
    exact ⟨ds', ts', h1, h2, (cycleOn_ok h3).1⟩
  · intro d hd hda
    obtain ⟨y, hy, hT⟩ := hst d hd hda
    refine ⟨y, hy, fun t' => ?_, h'.tentative.2 ⟨_, hT, rfl⟩, h'.counter_some (by omega) hT⟩
    rw [h'.hasTrack, hT]
    simp only [Option.some.injEq, exists_eq_left']
    exact eq_comm
  · intro u hu hsu
    obtain ⟨e, x, d, hd, y, f, he, hx, hy, hl, hvf, hT⟩ := hin u (hns u hsu) hu
    refine ⟨e.track, x, d, hd, y, f, h.hasTrack.2 ⟨e, he, rfl⟩, hx, hy, hl, hvf, fun t' => ?_⟩
    rw [h'.hasTrack, hT, h.counter_some (by omega) he, h.promo, h.removal]
    simp only [Table.updateEntry, Table.newCount, if_true]
    split
    · simp only [reduceCtorEq, false_and, exists_false, false_iff, not_and, not_lt]
      intro _; assumption
    · simp only [Option.some.injEq, exists_eq_left']
      constructor
      · intro h; exact ⟨h.symm, by omega⟩
      · intro h; exact h.1.symm
  · intro u hu hsu t'
    rw [h'.hasTrack, hnot u (hns u hsu) hu, h.hasTrack]
    rcases he : T.entry u with _ | e
    · simp
    · rw [h.counter_some (by omega) he, h.removal]
      simp only [Option.bind_some, Table.updateEntry, Table.newCount, Bool.false_eq_true, if_false]
      split
      · simp only [reduceCtorEq, false_and, exists_false, Option.some.injEq, exists_eq_left',
          false_iff, not_and, not_lt]
        intro _; assumption
      · simp only [Option.some.injEq, exists_eq_left']
        constructor
        · intro h; exact ⟨h, by omega⟩
        · intro h; exact h.1
  · intro u hu hsu
    obtain ⟨e', he'⟩ := h'.managed.1 hu
    obtain ⟨e, he, hc, -⟩ := hentry u e' hsu he'
    rw [h'.counter_some (by omega) he', h.counter_some (by omega) he, h.promo, hc]
    simp only [Table.newCount, decide_eq_true_eq]
  · intro u hsu
    rw [h'.confirmed, h'.managed, h.confirmed]
    constructor
    · rintro ⟨e', he', hc'⟩
      obtain ⟨e, he, hc, hcf⟩ := hentry u e' hsu he'
      refine ⟨⟨e', he'⟩, ?_⟩
      rw [hcf, Bool.or_eq_true, decide_eq_true_eq] at hc'
      rw [h'.counter_some (by omega) he', h.promo]
      exact hc'.imp (fun h => ⟨e, he, h⟩) id
    · rintro ⟨⟨e', he'⟩, hor⟩
      obtain ⟨e, he, hc, hcf⟩ := hentry u e' hsu he'
      refine ⟨e', he', ?_⟩
      rw [h'.counter_some (by omega) he', h.promo] at hor
      rw [hcf, Bool.or_eq_true, decide_eq_true_eq]
      refine hor.imp (fun ⟨e₂, h1, h2⟩ => ?_) id
      rw [he] at h1; cases h1; exact h2
  · rw [h'.promo, hpr, h.promo]
  · rw [h'.removal, hrem, h.removal]

/-- C100: a period completes exactly if the predictions, the association and the fusion succeed and
no detection that starts a track has the UUID of a track that is still managed after the update of
the track lists. -/
theorem C100_completes_iff {n : ℕ} {m : Manager (Obj2 S₁ C₁ S₂ C₂)} (hr : ReachableIn _ _ n m)
    (hn : n + 3 < 2 ^ 64) {solve : Solver} (hs : IsPermSolver solve)
    (metric : Obj2 S₁ C₁ S₂ C₂ → Obj2 S₁ C₁ S₂ C₂ → Option FP) (gate : FP → Bool)
    {visitor : Obj2 S₁ C₁ S₂ C₂ → Obj2 S₁ C₁ S₂ C₂ → Outcome (Obj2 S₁ C₁ S₂ C₂)}
    (hv : ∀ t d f, visitor t d = .ok f → SameObject t f)
    {align : Obj2 S₁ C₁ S₂ C₂ → Outcome (Obj2 S₁ C₁ S₂ C₂)}
    (hal : ∀ o o', align o = .ok o' → SameObject o o') {ds : List (Obj2 S₁ C₁ S₂ C₂)}
    (hds : (ds.map TrackOps.uuid).Nodup) (hbig : m.getAllTracks.length * ds.length < 2 ^ 64)
    (a : AssociationMap) :
    (period solve metric gate visitor makeTrack2 align ds m).2 = .ok a ↔
      ∃ ds' ts', List.Forall₂ (fun o o' => align o = .ok o') ds ds' ∧
        List.Forall₂ (fun o o' => align o = .ok o') m.getAllTracks ts' ∧
        associateStep solve metric gate ts' ds' = .ok a ∧
        (fuseAssociations a ts' ds' visitor).IsOk ∧
        ∀ d ∈ ds, Unassociated a d → m.Managed (TrackOps.uuid d) →
          (if TrackOps.uuid d ∈ a.keys then min (m.counter (TrackOps.uuid d) + 1) m.promo.toNat
            else m.counter (TrackOps.uuid d) - 1) ≤ m.removal.toNat := by
  obtain ⟨T, h⟩ := reachable_rel hr (by omega)
  constructor
  · intro ho
    rcases hx : period solve metric gate visitor makeTrack2 align ds m with ⟨m', o⟩
    rw [hx] at ho
    simp only at ho
    subst ho
    obtain ⟨ds', ts', m₁, h1, h2, h3, -⟩ := period_ok.1 hx
    obtain ⟨ha, fused, hf⟩ := cycleOn_ok h3
    refine ⟨ds', ts', h1, h2, ha, by rw [hf]; simp, ?_⟩
    rcases period_cases hn h hs hv hal hds hbig h1 h2 ha hf with ⟨hc, -⟩ | ⟨-, hc⟩
    · exact hc
    · rw [hx] at hc
      cases hc
  · rintro ⟨ds', ts', h1, h2, ha, hf, hfree⟩
    obtain ⟨fused, hf⟩ : ∃ fused, fuseAssociations a ts' ds' visitor = .ok fused := by
      rcases hx : fuseAssociations a ts' ds' visitor with o | _ | _
      · exact ⟨o, rfl⟩
      · rw [hx] at hf; simp at hf
      · rw [hx] at hf; simp at hf
    rcases period_cases hn h hs hv hal hds hbig h1 h2 ha hf with ⟨-, hc⟩ | ⟨⟨d, hd, hda, hm, hlt⟩, -⟩
    · exact hc
    · exact absurd (hfree d hd hda hm) (by omega)

/-- C100: if only the UUIDs clash, the period throws `std::logic_error`. -/
theorem C100_clash {n : ℕ} {m : Manager (Obj2 S₁ C₁ S₂ C₂)} (hr : ReachableIn _ _ n m)
    (hn : n + 3 < 2 ^ 64) {solve : Solver} (hs : IsPermSolver solve)
    {metric : Obj2 S₁ C₁ S₂ C₂ → Obj2 S₁ C₁ S₂ C₂ → Option FP} {gate : FP → Bool}
    {visitor : Obj2 S₁ C₁ S₂ C₂ → Obj2 S₁ C₁ S₂ C₂ → Outcome (Obj2 S₁ C₁ S₂ C₂)}
    (hv : ∀ t d f, visitor t d = .ok f → SameObject t f)
    {align : Obj2 S₁ C₁ S₂ C₂ → Outcome (Obj2 S₁ C₁ S₂ C₂)}
    (hal : ∀ o o', align o = .ok o' → SameObject o o') {ds : List (Obj2 S₁ C₁ S₂ C₂)}
    (hds : (ds.map TrackOps.uuid).Nodup) (hbig : m.getAllTracks.length * ds.length < 2 ^ 64)
    {ds' ts' : List (Obj2 S₁ C₁ S₂ C₂)}
    (hd : List.Forall₂ (fun o o' => align o = .ok o') ds ds')
    (ht : List.Forall₂ (fun o o' => align o = .ok o') m.getAllTracks ts')
    {a : AssociationMap} (ha : associateStep solve metric gate ts' ds' = .ok a)
    (hf : (fuseAssociations a ts' ds' visitor).IsOk)
    {d : Obj2 S₁ C₁ S₂ C₂} (hdm : d ∈ ds) (hda : Unassociated a d)
    (hm : m.Managed (TrackOps.uuid d))
    (hlt : m.removal.toNat < if TrackOps.uuid d ∈ a.keys
      then min (m.counter (TrackOps.uuid d) + 1) m.promo.toNat
      else m.counter (TrackOps.uuid d) - 1) :
    (period solve metric gate visitor makeTrack2 align ds m).2 = .throw .logicError := by
  obtain ⟨T, h⟩ := reachable_rel hr (by omega)
  obtain ⟨fused, hf⟩ : ∃ fused, fuseAssociations a ts' ds' visitor = .ok fused := by
    rcases hx : fuseAssociations a ts' ds' visitor with o | _ | _
    · exact ⟨o, rfl⟩
    · rw [hx] at hf; simp at hf
    · rw [hx] at hf; simp at hf
  rcases period_cases hn h hs hv hal hds hbig hd ht ha hf with ⟨hc, -⟩ | ⟨-, hc⟩
  · exact absurd (hc d hdm hda hm) (by omega)
  · exact hc

/-- C100: if the prediction and the fusion do not throw, a period with new detections does not throw:
it completes or has undefined behaviour. -/
theorem C100_never_throws {n : ℕ} {m : Manager (Obj2 S₁ C₁ S₂ C₂)} (hr : ReachableIn _ _ n m)
    (hn : n + 3 < 2 ^ 64) {solve : Solver} (hs : IsPermSolver solve)
    (metric : Obj2 S₁ C₁ S₂ C₂ → Obj2 S₁ C₁ S₂ C₂ → Option FP) (gate : FP → Bool)
    {visitor : Obj2 S₁ C₁ S₂ C₂ → Obj2 S₁ C₁ S₂ C₂ → Outcome (Obj2 S₁ C₁ S₂ C₂)}
    (hv : ∀ t d f, visitor t d = .ok f → SameObject t f)
    (hvt : ∀ t d e, visitor t d ≠ .throw e)
    {align : Obj2 S₁ C₁ S₂ C₂ → Outcome (Obj2 S₁ C₁ S₂ C₂)}
    (hal : ∀ o o', align o = .ok o' → SameObject o o')
    (halt : ∀ o e, align o ≠ .throw e) {ds : List (Obj2 S₁ C₁ S₂ C₂)}
    (hds : (ds.map TrackOps.uuid).Nodup) (hbig : m.getAllTracks.length * ds.length < 2 ^ 64)
    (hnew : ∀ d ∈ ds, ¬ m.Managed (TrackOps.uuid d)) :
    (period solve metric gate visitor makeTrack2 align ds m).2.IsOk ∨
      (period solve metric gate visitor makeTrack2 align ds m).2.IsUb := by
  obtain ⟨T, h⟩ := reachable_rel hr (by omega)
  have hmap : ∀ l, (∃ l', Outcome.mapM' align l = .ok l') ∨ ∃ w, Outcome.mapM' align l = .ub w := by
    intro l
    induction l with
    | nil => exact .inl ⟨[], rfl⟩
    | cons o l ih =>
      rw [Outcome.mapM']
      rcases ho : align o with o' | e | w
      · simp only
        rcases ih with ⟨l', hl⟩ | ⟨w, hw⟩
        · rw [hl]; exact .inl ⟨_, rfl⟩
        · rw [hw]; exact .inr ⟨_, rfl⟩
      · exact absurd ho (halt o e)
      · exact .inr ⟨w, rfl⟩
  rcases hmap ds with ⟨ds', h1⟩ | ⟨w, hw⟩
  · rcases hmap m.getAllTracks with ⟨ts', h2⟩ | ⟨w, hw⟩
    · have hd := Outcome.mapM'_ok_iff.1 h1
      have ht := Outcome.mapM'_ok_iff.1 h2
      have hd' : List.Forall₂ SameObject ds ds' := hd.imp fun x y => hal x y
      have ht' : List.Forall₂ SameObject m.getAllTracks ts' := ht.imp fun x y => hal x y
      have hds' : (ds'.map TrackOps.uuid).Nodup := by rw [SameObject.uuids hd']; exact hds
      rcases cycleOn_not_throw hr hn hs (metric := metric) (gate := gate) hv hvt ht' hds'
        (by rw [← ht'.length_eq, ← hd'.length_eq]; exact hbig) with ho | ⟨hu, -⟩
      · rcases hx : cycleOn solve metric gate visitor ts' ds' m with ⟨m₁, a | e | w⟩
        · obtain ⟨ha, fused, hf⟩ := cycleOn_ok hx
          rcases period_cases hn h hs hv hal hds hbig hd ht ha hf with ⟨-, hc⟩ | ⟨⟨d, hdm, -, hm, -⟩, -⟩
          · left; rw [hc]; simp
          · exact absurd hm (hnew d hdm)
        · rw [hx] at ho; simp at ho
        · rw [hx] at ho; simp at ho
      · right
        unfold period
        rw [h1, h2]
        simp only
        rw [Act.andThen]
        rcases hx : cycleOn solve metric gate visitor ts' ds' m with ⟨m₁, a | e | w⟩
        · rw [hx] at hu; simp at hu
        · rw [hx] at hu; simp at hu
        · simp
    · right
      unfold period
      rw [h1, hw]
      simp
  · right
    unfold period
    rw [hw]
    simp

/-- C100: after any sequence of periods, the time of a track is the time of the last period in which
it was associated or started; a track that was never seen is the track stored before the periods. -/
theorem C100_timestamps {n : ℕ} {m m' : Manager (Obj2 S₁ C₁ S₂ C₂)} (hr : ReachableIn _ _ n m)
    {visitor : Obj2 S₁ C₁ S₂ C₂ → Obj2 S₁ C₁ S₂ C₂ → Outcome (Obj2 S₁ C₁ S₂ C₂)}
    (hv : ∀ t d f, visitor t d = .ok f →
      SameObject t f ∧ TrackOps.timestamp f = TrackOps.timestamp d)
    {align : ℝ → Obj2 S₁ C₁ S₂ C₂ → Outcome (Obj2 S₁ C₁ S₂ C₂)}
    (hal : ∀ time o o', align time o = .ok o' → SameObject o o' ∧ TrackOps.timestamp o' = time)
    {l : List (PeriodLog (Obj2 S₁ C₁ S₂ C₂))} (h : Periods visitor makeTrack2 align m l m')
    (hn : n + l.length + 3 < 2 ^ 64) :
    ∀ u t, m'.HasTrack u t →
      (∃ l₁ p l₂, l = l₁ ++ p :: l₂ ∧ p.Seen u ∧ (∀ q ∈ l₂, ¬ q.Seen u) ∧
        TrackOps.timestamp t = p.time) ∨
      ((∀ q ∈ l, ¬ q.Seen u) ∧ m.HasTrack u t) := by
  obtain ⟨T₀, h₀⟩ := reachable_rel hr (by omega)
  suffices key : ∃ T, Rel (n + l.length) m' T ∧ ∀ u e, T.entry u = some e →
      (∃ l₁ p l₂, l = l₁ ++ p :: l₂ ∧ p.Seen u ∧ (∀ q ∈ l₂, ¬ q.Seen u) ∧
        TrackOps.timestamp e.track = p.time) ∨
      ((∀ q ∈ l, ¬ q.Seen u) ∧ m.HasTrack u e.track) by
    obtain ⟨T, hT, hk⟩ := key
    intro u t ht
    obtain ⟨e, he, rfl⟩ := hT.hasTrack.1 ht
    exact hk u e he
  induction h with
  | nil => exact ⟨T₀, h₀, fun u e he => .inr ⟨by simp, h₀.hasTrack.2 ⟨e, he, rfl⟩⟩⟩
  | @snoc m₁ m₂ l p _ solve hs metric gate hds hbig hp ih =>
    rw [List.length_append, List.length_singleton] at hn
    obtain ⟨T, hT, hk⟩ := ih (by omega)
    obtain ⟨T', h', -, -, hst, hnot, hin⟩ := period_rel (by omega) hT hs
      (fun t d f hf => (hv t d f hf).1) (fun o o' ho => (hal p.time o o' ho).1) hds hbig hp
    refine ⟨T', ?_, ?_⟩
    · rw [List.length_append, List.length_singleton, ← Nat.add_assoc]
      exact h'
    · intro u e he
      by_cases hsu : Starts p.associations p.detections u
      · obtain ⟨d, hd, rfl, hda⟩ := hsu
        obtain ⟨y, hy, hT'⟩ := hst d hd hda
        rw [hT'] at he
        cases he
        refine .inl ⟨l, p, [], rfl, .inr ⟨d, hd, rfl, hda⟩, by simp, ?_⟩
        rw [← (hal _ _ _ hy).2]
        cases y <;> rfl
      · have hns : ∀ d ∈ p.detections, TrackOps.uuid d = u → ¬ Unassociated p.associations d :=
          fun d hd e ha => hsu ⟨d, hd, e, ha⟩
        by_cases hu : u ∈ p.associations.keys
        · obtain ⟨e₀, x, d, hd, y, f, he₀, hx, hy, hl, hvf, hT'⟩ := hin u hns hu
          rw [hT'] at he
          simp only [Table.updateEntry] at he
          split at he
          · cases he
          · cases he
            refine .inl ⟨l, p, [], rfl, .inl hu, by simp, ?_⟩
            rw [← (hal _ _ _ hy).2]
            exact (hv _ _ _ hvf).2
        · rw [hnot u hns hu] at he
          obtain ⟨e₀, he₀, hup⟩ := Option.bind_eq_some_iff.1 he
          simp only [Table.updateEntry] at hup
          split at hup
          · cases hup
          · cases hup
            have hq : ¬ p.Seen u := fun h => h.elim hu hsu
            rcases hk u e₀ he₀ with ⟨l₁, q, l₂, rfl, h1, h2, h3⟩ | ⟨h1, h2⟩
            · refine .inl ⟨l₁, q, l₂ ++ [p], by simp, h1, ?_, h3⟩
              intro r hr'
              rcases List.mem_append.1 hr' with hr' | hr'
              · exact h2 r hr'
              · rw [List.mem_singleton] at hr'; exact hr' ▸ hq
            · refine .inr ⟨?_, h2⟩
              intro r hr'
              rcases List.mem_append.1 hr' with hr' | hr'
              · exact h1 r hr'
              · rw [List.mem_singleton] at hr'; exact hr' ▸ hq

/-- C100: if the periods and the tracks stored before them are not later than `time`, predicting any
track to `time` is a prediction over a duration that is not negative. -/
theorem C100_durations {n : ℕ} {m m' : Manager (Obj2 S₁ C₁ S₂ C₂)} (hr : ReachableIn _ _ n m)
    {visitor : Obj2 S₁ C₁ S₂ C₂ → Obj2 S₁ C₁ S₂ C₂ → Outcome (Obj2 S₁ C₁ S₂ C₂)}
    (hv : ∀ t d f, visitor t d = .ok f →
      SameObject t f ∧ TrackOps.timestamp f = TrackOps.timestamp d)
    {align : ℝ → Obj2 S₁ C₁ S₂ C₂ → Outcome (Obj2 S₁ C₁ S₂ C₂)}
    (hal : ∀ time o o', align time o = .ok o' → SameObject o o' ∧ TrackOps.timestamp o' = time)
    {l : List (PeriodLog (Obj2 S₁ C₁ S₂ C₂))} (h : Periods visitor makeTrack2 align m l m')
    (hn : n + l.length + 3 < 2 ^ 64) {time : ℝ} (hl : ∀ p ∈ l, p.time ≤ time)
    (h0 : ∀ t ∈ m.getAllTracks, TrackOps.timestamp t ≤ time) :
    ∀ t ∈ m'.getAllTracks, 0 ≤ time - TrackOps.timestamp t := by
  intro t ht
  rcases C100_timestamps hr hv hal h hn (TrackOps.uuid t) t ⟨ht, rfl⟩ with
    ⟨l₁, p, l₂, rfl, -, -, h3⟩ | ⟨-, h3, -⟩
  · have := hl p (by simp)
    linarith
  · have := h0 t h3
    linarith

end

/-! ### The library's functions -/

/-- C100: predicting with any two propagators keeps the object and sets the time. -/
theorem C100_predict_same {S₁ C₁ S₂ C₂ : Type} (prop₁ : Propagator S₁ C₁) (prop₂ : Propagator S₂ C₂)
    (time : ℝ) (o o' : Obj2 S₁ C₁ S₂ C₂) (h : predict2 o time prop₁ prop₂ = .ok o') :
    SameObject o o' ∧ TrackOps.timestamp o' = time := by
  rw [C36_predict_variant] at h
  obtain ⟨h1, h2, h3, h4⟩ := C36_identity o time prop₁ prop₂
  rw [h] at h1 h2 h3 h4
  exact ⟨⟨h1, h2, h3⟩, h4 rfl⟩

/-- C100: with the library's default propagator the prediction always succeeds (exact arithmetic). -/
theorem C100_predict_succeeds (chol : Chol) (time : ℝ) (o : MotObj) :
    ∃ o', predict2 o time (defaultUt chol) (defaultUt chol) = .ok o' := by
  have key : ∀ {S : Type} {n : ℕ} [MotionModel S n] (o : DynObj S (Matrix (Fin n) (Fin n) ℝ)),
      ∃ s C, defaultUt chol (time - o.timestamp) (o.state, o.covariance) = ((s, C), .ok ()) := by
    intro S n _ o
    obtain ⟨⟨s, C⟩, h⟩ := (C42_defined_iff chol o.state o.covariance (time - o.timestamp) 1 1 2).2
      (by positivity)
    exact ⟨s, C, by unfold defaultUt unscentedTransform; simp only [h]⟩
  cases o with
  | inl o =>
    obtain ⟨s, C, h⟩ := key o
    refine ⟨.inl ⟨time, s, C, o.uuid, o.semanticClass⟩, (C36_predict_variant _ _ _ _ _).2 ?_⟩
    rw [propagate2, C36_propagate _ _ _ _ _ h]
  | inr o =>
    obtain ⟨s, C, h⟩ := key o
    refine ⟨.inr ⟨time, s, C, o.uuid, o.semanticClass⟩, (C36_predict_variant _ _ _ _ _).2 ?_⟩
    rw [propagate2, C36_propagate _ _ _ _ _ h]

/-- C100: fusing by covariance intersection keeps the track's identity and takes the detection's
time. -/
theorem C100_fuse_same (t d f : MotObj) (h : ciVisitor t d = .ok f) :
    SameObject t f ∧ TrackOps.timestamp f = TrackOps.timestamp d :=
  ⟨ciVisitor_same t d f h, (C30_identity_and_time t d f h).2.2.1⟩

/-- C100: with the library's default propagator and covariance intersection, a period with new
detections completes or has undefined behaviour, and then in the association or in the fusion of the
predicted objects. -/
theorem C100_library {n : ℕ} {m : Manager MotObj} (hr : ReachableIn _ _ n m)
    (hn : n + 3 < 2 ^ 64) {solve : Solver} (hs : IsPermSolver solve) (chol : Chol) (time : ℝ)
    (metric : MotObj → MotObj → Option FP) (gate : FP → Bool) {ds : List MotObj}
    (hds : (ds.map TrackOps.uuid).Nodup) (hbig : m.getAllTracks.length * ds.length < 2 ^ 64)
    (hnew : ∀ d ∈ ds, ¬ m.Managed (TrackOps.uuid d)) :
    ∃ ds' ts',
      List.Forall₂ (fun o o' => predict2 o time (defaultUt chol) (defaultUt chol) = .ok o') ds ds' ∧
      List.Forall₂ (fun o o' => predict2 o time (defaultUt chol) (defaultUt chol) = .ok o')
        m.getAllTracks ts' ∧
      (((∃ a, (period solve metric gate ciVisitor makeTrack2
          (fun o => predict2 o time (defaultUt chol) (defaultUt chol)) ds m).2 = .ok a ∧
          associateStep solve metric gate ts' ds' = .ok a ∧
          (fuseAssociations a ts' ds' ciVisitor).IsOk)) ∨
        ((period solve metric gate ciVisitor makeTrack2
          (fun o => predict2 o time (defaultUt chol) (defaultUt chol)) ds m).2.IsUb ∧
          ((associateStep solve metric gate ts' ds').IsUb ∨
            ∃ a, associateStep solve metric gate ts' ds' = .ok a ∧
              (fuseAssociations a ts' ds' ciVisitor).IsUb))) := by
  have hmap : ∀ l : List MotObj, ∃ l', List.Forall₂
      (fun o o' => predict2 o time (defaultUt chol) (defaultUt chol) = .ok o') l l' := by
    intro l
    induction l with
    | nil => exact ⟨[], .nil⟩
    | cons o l ih =>
      obtain ⟨l', h⟩ := ih
      obtain ⟨o', ho⟩ := C100_predict_succeeds chol time o
      exact ⟨o' :: l', .cons ho h⟩
  obtain ⟨ds', hd⟩ := hmap ds
  obtain ⟨ts', ht⟩ := hmap m.getAllTracks
  have hal := fun (o o' : MotObj) h => (C100_predict_same (defaultUt chol) (defaultUt chol) time o o' h).1
  refine ⟨ds', ts', hd, ht, ?_⟩
  have hd' : List.Forall₂ SameObject ds ds' := hd.imp fun x y => hal x y
  have ht' : List.Forall₂ SameObject m.getAllTracks ts' := ht.imp fun x y => hal x y
  have hds' : (ds'.map TrackOps.uuid).Nodup := by rw [SameObject.uuids hd']; exact hds
  rcases cycleOn_not_throw hr hn hs (metric := metric) (gate := gate) ciVisitor_same
    ciVisitor_not_throw ht' hds'
    (by rw [← ht'.length_eq, ← hd'.length_eq]; exact hbig) with ho | ⟨hu, hw⟩
  · left
    rcases hx : cycleOn solve metric gate ciVisitor ts' ds' m with ⟨m₁, a | e | w⟩
    · obtain ⟨ha, fused, hf⟩ := cycleOn_ok hx
      have hf' : (fuseAssociations a ts' ds' ciVisitor).IsOk := by rw [hf]; simp
      exact ⟨a, (C100_completes_iff hr hn hs metric gate ciVisitor_same hal hds hbig a).2
        ⟨ds', ts', hd, ht, ha, hf', fun d hdm _ hm => absurd hm (hnew d hdm)⟩, ha, hf'⟩
    · rw [hx] at ho; simp at ho
    · rw [hx] at ho; simp at ho
  · right
    refine ⟨?_, hw⟩
    unfold period
    rw [Outcome.mapM'_ok_iff.2 hd, Outcome.mapM'_ok_iff.2 ht]
    simp only
    rw [Act.andThen]
    rcases hx : cycleOn solve metric gate ciVisitor ts' ds' m with ⟨m₁, a | e | w⟩
    · rw [hx] at hu; simp at hu
    · rw [hx] at hu; simp at hu
    · simp

/-! ### Examples -/

/-- a propagator that leaves the estimate as it is -/
def hold {S C : Type} : Propagator S C := fun _ x => (x, .ok ())

/-- the object at another time -/
def atTime (time : ℝ) : MotObj → MotObj
  | .inl o => .inl { o with timestamp := time }
  | .inr o => .inr { o with timestamp := time }

theorem predict_hold (time : ℝ) (o : MotObj) : predict2 o time hold hold = .ok (atTime time o) := by
  cases o <;> rfl

theorem forall_hold (time : ℝ) (l : List MotObj) :
    List.Forall₂ (fun o o' => predict2 o time hold hold = .ok o') l (l.map (atTime time)) := by
  rw [List.forall₂_map_right_iff, List.forall₂_same]
  exact fun o _ => predict_hold time o

/-- one track, a CTRV detection and a CTRA detection at time 5: the CTRV detection is associated with
the track, the CTRA detection with none -/
theorem sample_aligned {solve : Solver} (hs : IsOptimalSolver solve) {b : Fin 256} (hb : b ≠ 7) :
    ∃ a, associateStep solve unitMetric (fun _ => false) ([motCtrv 1].map (atTime 5))
        ([motCtrv 7, motCtra b].map (atTime 5)) = .ok a ∧
      (fuseAssociations a ([motCtrv 1].map (atTime 5)) ([motCtrv 7, motCtra b].map (atTime 5))
        ciVisitor).IsOk ∧
      ⟨[1]⟩ ∈ a.keys ∧ Unassociated a (motCtra b) := by
  have hD' : (([motCtrv 7, motCtra b].map (atTime 5)).map TrackOps.uuid).Nodup := by
    show [(⟨[7]⟩ : Uuid), ⟨[b]⟩].Nodup
    simpa using fun h => hb h.symm
  have hT' : (([motCtrv 1].map (atTime 5)).map TrackOps.uuid).Nodup := by simp
  obtain ⟨a, ha⟩ := unitMetric_associates hs.perm (ts := [motCtrv 1].map (atTime 5))
    (ds := [motCtrv 7, motCtra b].map (atTime 5)) (by simp) hT' hD'
    ⟨atTime 5 (motCtrv 1), by simp, atTime 5 (motCtrv 7), by simp, rfl⟩
  obtain ⟨hmod, hfu⟩ := C68_not_unbalanced_partial hs hT' hD' (by simp) unitMetric_library
    (fun _ _ _ _ s h => ⟨rfl, by
      obtain ⟨q, h1, h2, h3⟩ := unitMetric_range h
      exact ⟨q, h1, h2.le, h3⟩⟩) (fun h => absurd h.2.1 (show ¬ 1 ≤ 0 by decide)) ha
  have hf := hfu (by
    intro o ho
    simp only [List.map_cons, List.map_nil, List.cons_append, List.nil_append, List.mem_cons,
      List.not_mem_nil, or_false] at ho
    rcases ho with rfl | rfl | rfl
    · exact (sample_posDef 1).1
    · exact (sample_posDef 7).1
    · exact (sample_posDef b).2)
  have hbig : (pruneScoresIf (scoreTracksAndDetections ([motCtrv 1].map (atTime 5))
      ([motCtrv 7, motCtra b].map (atTime 5)) unitMetric) fun _ => false).entries.length < 2 ^ 64 :=
    lt_of_le_of_lt ((prune_length_le _ _).trans (score_length_le _ _ _)) (by simp)
  have hiff := fun {t d : MotObj} (ht : t ∈ [motCtrv 1].map (atTime 5))
      (hd : d ∈ [motCtrv 7, motCtra b].map (atTime 5)) =>
    scored_iff_model unitMetric_library (gate := fun _ => false) hT' hD'
      (fun _ _ _ _ _ _ => rfl) ht hd
  have hpair : ∀ x ∈ pairsOf a, x = (⟨[1]⟩, ⟨[7]⟩) := by
    intro x hx
    obtain ⟨⟨d', h1⟩, ⟨t', h2⟩⟩ := (C19_one_to_one hs.perm hbig ha).2.2.2 x hx
    obtain ⟨t, ht, -, -, e1, -⟩ := scored_present h1
    obtain ⟨t₂, ht₂, d, hd, e3, e2, -⟩ := scored_present h2
    rw [← e3, ← e2] at h2
    have hl := (hiff ht₂ hd).1 h2
    simp only [List.map_cons, List.map_nil, List.mem_cons, List.not_mem_nil, or_false] at ht ht₂ hd
    subst ht ht₂
    rcases hd with rfl | rfl
    · exact Prod.ext e1.symm e2.symm
    · cases hl
  have hne : pairsOf a ≠ [] := by
    have hc := (C20_card hs.perm hbig ha).1
    have hsc := (hiff (t := atTime 5 (motCtrv 1)) (d := atTime 5 (motCtrv 7)) (by simp) (by simp)).2 rfl
    have h1 : 0 < trackCount _ := Finset.card_pos.2 ⟨_, mem_trackNames.2 ⟨_, hsc⟩⟩
    have h2 : 0 < detectionCount _ := Finset.card_pos.2 ⟨_, mem_detectionNames.2 ⟨_, hsc⟩⟩
    intro h0
    rw [h0, List.length_nil] at hc
    omega
  have hst : Unassociated a (motCtra b) := by
    intro u l hl h8
    have := hpair (u, ⟨[b]⟩) (mem_pairsOf_iff.2 ⟨l, hl, h8⟩)
    have := (Prod.ext_iff.1 this).2
    simp only [Uuid.mk.injEq, List.cons.injEq, and_true] at this
    exact hb this
  refine ⟨a, ha, hf, ?_, hst⟩
  obtain ⟨x, hx⟩ := List.exists_mem_of_ne_nil _ hne
  obtain rfl := hpair x hx
  obtain ⟨l, hl, -⟩ := mem_pairsOf_iff.1 hx
  exact List.mem_map.2 ⟨_, SMap.find?_eq_some.1 hl, rfl⟩

/-- a period at time 5 with one track, a CTRV detection and a CTRA detection: the CTRV detection is
fused into the track, the CTRA detection starts a track, both at time 5 -/
theorem sample_period {solve : Solver} (hs : IsOptimalSolver solve) :
    let m := (addTentativeTrack (motCtrv 1) (Manager.new 3 0)).1
    ∃ m' a, ReachableIn _ _ 0 m ∧
      period solve unitMetric (fun _ => false) ciVisitor makeTrack2
        (fun o => predict2 o 5 hold hold) [motCtrv 7, motCtra 8] m = (m', .ok a) ∧
      ⟨[1]⟩ ∈ a.keys ∧ Starts a [motCtrv 7, motCtra 8] ⟨[8]⟩ := by
  intro m
  have hreach : ReachableIn _ _ 0 m :=
    reachable_step (⟨3, 0, [], [], .nil (Reordered.refl _), rfl⟩ :
      ReachableIn _ _ 0 (Manager.new 3 0 : Manager MotObj)) (.add (motCtrv 1))
  have hm : m.getAllTracks = [motCtrv 1] := rfl
  have hD : ([motCtrv 7, motCtra 8].map TrackOps.uuid).Nodup := by
    show [(⟨[7]⟩ : Uuid), ⟨[8]⟩].Nodup
    decide +kernel
  obtain ⟨a, ha, hf, h1, h8⟩ := sample_aligned hs (b := 8) (by decide)
  have ho := (C100_completes_iff hreach (by norm_num) hs.perm unitMetric (fun _ => false)
    ciVisitor_same (fun (o o' : MotObj) h => (C100_predict_same hold hold 5 o o' h).1) hD
    (by rw [hm]; simp) a).2 ⟨_, _, forall_hold 5 _, forall_hold 5 _, by rw [hm]; exact ha,
      by rw [hm]; exact hf, by
        rintro d hd - ⟨t, ht, hu⟩
        rw [hm, List.mem_singleton] at ht
        subst ht
        simp only [List.mem_cons, List.not_mem_nil, or_false] at hd
        rcases hd with rfl | rfl
        · exact absurd hu (show (⟨[1]⟩ : Uuid) ≠ ⟨[7]⟩ by decide +kernel)
        · exact absurd hu (show (⟨[1]⟩ : Uuid) ≠ ⟨[8]⟩ by decide +kernel)⟩
  exact ⟨_, a, hreach, Prod.ext rfl ho, h1, motCtra 8, by simp, rfl, h8⟩

/-- the same with a CTRA detection that has the track's UUID: the period throws -/
example {solve : Solver} (hs : IsOptimalSolver solve) :
    (period solve unitMetric (fun _ => false) ciVisitor makeTrack2 (fun o => predict2 o 5 hold hold)
      [motCtrv 7, motCtra 1] (addTentativeTrack (motCtrv 1) (Manager.new 3 0)).1).2 =
        .throw .logicError := by
  have hreach := reachable_step (⟨3, 0, [], [], .nil (Reordered.refl _), rfl⟩ :
      ReachableIn _ _ 0 (Manager.new 3 0 : Manager MotObj)) (.add (motCtrv 1))
  have hD : ([motCtrv 7, motCtra 1].map TrackOps.uuid).Nodup := by
    show [(⟨[7]⟩ : Uuid), ⟨[1]⟩].Nodup
    decide +kernel
  obtain ⟨a, ha, hf, h1, h8⟩ := sample_aligned hs (b := 1) (by decide)
  refine C100_clash hreach (by simp [Op.updates]) hs.perm ciVisitor_same
    (fun (o o' : MotObj) h => (C100_predict_same hold hold 5 o o' h).1) hD
    (show [motCtrv 1].length * [motCtrv 7, motCtra 1].length < 2 ^ 64 by simp)
    (forall_hold 5 _) (forall_hold 5 [motCtrv 1]) ha hf (d := motCtra 1) (by simp) h8
    ⟨motCtrv 1, (show motCtrv 1 ∈ [motCtrv 1] by simp), rfl⟩ ?_
  rw [if_pos (show TrackOps.uuid (motCtra 1) ∈ a.keys from h1)]
  show 0 < min _ 3
  omega

/-- the track and the new track of `sample_period` are at time 5 -/
example {solve : Solver} (hs : IsOptimalSolver solve) :
    ∃ m m' : Manager MotObj, ∃ l, Periods ciVisitor makeTrack2
      (fun time o => predict2 o time hold hold) m l m' ∧
      ReachableIn _ _ 0 m ∧ l.length = 1 ∧ ∀ u t, m'.HasTrack u t →
        u = ⟨[1]⟩ ∨ u = ⟨[8]⟩ → TrackOps.timestamp t = 5 := by
  obtain ⟨m', a, hr, hp, h1, h8⟩ := sample_period hs
  have hD : ([motCtrv 7, motCtra 8].map TrackOps.uuid).Nodup := by
    show [(⟨[7]⟩ : Uuid), ⟨[8]⟩].Nodup
    decide +kernel
  have hP := Periods.snoc (visitor := ciVisitor) (align := fun time o => predict2 o time hold hold)
    ⟨5, [motCtrv 7, motCtra 8], a⟩ (.nil (addTentativeTrack (motCtrv 1) (Manager.new 3 0)).1) hs.perm hD
    (show [motCtrv 1].length * [motCtrv 7, motCtra 8].length < 2 ^ 64 by simp) hp
  refine ⟨_, m', _, hP, hr, rfl, fun u t ht hu => ?_⟩
  rcases C100_timestamps hr C100_fuse_same (C100_predict_same hold hold) hP (by simp) u t ht with
    ⟨l₁, p, l₂, hl, -, -, h3⟩ | ⟨hno, -⟩
  · have : p ∈ [(⟨5, [motCtrv 7, motCtra 8], a⟩ : PeriodLog MotObj)] := by
      rw [List.nil_append] at hl
      rw [hl]; simp
    rw [List.mem_singleton] at this
    rw [h3, this]
  · refine absurd ?_ (hno ⟨5, [motCtrv 7, motCtra 8], a⟩ (by simp))
    rcases hu with rfl | rfl
    · exact .inl h1
    · exact .inr h8

end Mot.Props
