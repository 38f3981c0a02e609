import Verif.Proofs.Pipeline
/-!
# Helper lemmas for the tracking cycle: what a user sees
-/

namespace Mot

open Manager Spec

theorem ciVisitor_same (t d f : MotObj) (h : ciVisitor t d = .ok f) : SameObject t f :=
  ⟨(Props.C30_identity_and_time t d f h).1, (Props.C30_identity_and_time t d f h).2.1,
    (Props.C30_identity_and_time t d f h).2.2.2.1⟩

section
variable {τ S C : Type} [TrackOps τ S C]

theorem fuseAssociations_not_throw {visitor : τ → τ → Outcome τ}
    (h : ∀ t d e, visitor t d ≠ .throw e) (a : AssociationMap) (ts ds : List τ) :
    (∃ out, fuseAssociations a ts ds visitor = .ok out) ∨
      (fuseAssociations a ts ds visitor).IsUb := by
  by_cases ho : ∃ out, fuseAssociations a ts ds visitor = .ok out
  · exact .inl ho
  · push Not at ho
    obtain ⟨-, p, -, -, -, ⟨e, he, -⟩ | ⟨w, -, hw⟩⟩ := Props.C29_failure a ts ds visitor ho
    · exact absurd he (h _ _ _)
    · right; rw [hw]; simp

theorem cycleOn_reachable {n : ℕ} {m : Manager τ} (hr : ReachableIn S C n m) (solve : Solver)
    (metric : τ → τ → Option FP) (gate : FP → Bool) (visitor : τ → τ → Outcome τ) (ts ds : List τ) :
    ReachableIn S C (n + 1) (cycleOn solve metric gate visitor ts ds m).1 ∨
      ReachableIn S C n (cycleOn solve metric gate visitor ts ds m).1 := by
  unfold cycleOn
  split
  · exact .inr hr
  · exact .inr hr
  · split
    · exact .inr hr
    · exact .inr hr
    · next fused _ =>
      have h1 := reachable_storeFused fused hr
      unfold Act.andThen
      rcases hx : storeFused fused m with ⟨s, _ | _ | _⟩
      · rw [hx] at h1
        left
        have h2 := reachable_step h1 (.update ‹_›)
        change ReachableIn _ _ _ (Manager.updateTrackLists _ s).1 at h2
        rcases hy : Manager.updateTrackLists ‹AssociationMap› s with ⟨s', _ | _ | _⟩ <;>
          (rw [hy] at h2; simp only [hy]; exact h2)
      · rw [hx] at h1; exact .inr h1
      · rw [hx] at h1; exact .inr h1

theorem HasTrack.unique [LawfulTrackOps τ] {n : ℕ} {m : Manager τ} (hr : ReachableIn S C n m)
    (hn : n + 2 < 2 ^ 64) {u : Uuid} {t t' : τ} (h : m.HasTrack u t) (h' : m.HasTrack u t') :
    t = t' := by
  obtain ⟨T, hT⟩ := reachable_rel hr hn
  obtain ⟨e, he, rfl⟩ := hT.hasTrack.1 h
  obtain ⟨e', he', rfl⟩ := hT.hasTrack.1 h'
  rw [he] at he'
  cases he'
  rfl

end

section
variable {S₁ C₁ S₂ C₂ : Type}

theorem cycleOn_observed {n : ℕ} {m : Manager (Obj2 S₁ C₁ S₂ C₂)} (hr : ReachableIn _ _ n m)
    (hn : n + 3 < 2 ^ 64) {solve : Solver} (hs : IsPermSolver solve)
    {metric : Obj2 S₁ C₁ S₂ C₂ → Obj2 S₁ C₁ S₂ C₂ → Option FP} {gate : FP → Bool}
    {visitor : Obj2 S₁ C₁ S₂ C₂ → Obj2 S₁ C₁ S₂ C₂ → Outcome (Obj2 S₁ C₁ S₂ C₂)}
    (hv : ∀ t d f, visitor t d = .ok f → SameObject t f) {ts ds : List (Obj2 S₁ C₁ S₂ C₂)}
    (hts : List.Forall₂ SameObject m.getAllTracks ts) (hD : (ds.map TrackOps.uuid).Nodup)
    (hbig : ts.length * ds.length < 2 ^ 64) {a : AssociationMap}
    (ha : associateStep solve metric gate ts ds = .ok a)
    (hf : (fuseAssociations a ts ds visitor).IsOk) :
    (cycleOn solve metric gate visitor ts ds m).2 = .ok a ∧
    let m' := (cycleOn solve metric gate visitor ts ds m).1
    (∀ u ∈ a.keys, ∃ t, ∃ x ∈ ts, m.HasTrack u t ∧ SameObject t x ∧ TrackOps.uuid x = u ∧
      ∃ y ∈ ds, a.find? u = some [TrackOps.uuid y] ∧
      ∃ f, visitor x y = .ok f ∧ ∀ t', m'.HasTrack u t' ↔
        t' = f ∧ m.removal.toNat < min (m.counter u + 1) m.promo.toNat) ∧
    (∀ u, u ∉ a.keys → ∀ t', m'.HasTrack u t' ↔
      m.HasTrack u t' ∧ m.removal.toNat < m.counter u - 1) ∧
    (∀ u, m'.Managed u → m'.counter u =
      if u ∈ a.keys then min (m.counter u + 1) m.promo.toNat else m.counter u - 1) ∧
    (∀ u, m'.Confirmed u ↔ m'.Managed u ∧ (m.Confirmed u ∨ m.promo.toNat ≤ m'.counter u)) ∧
    m'.promo.toNat = m.promo.toNat ∧ m'.removal.toNat = m.removal.toNat := by
  obtain ⟨fused, hfu⟩ : ∃ fused, fuseAssociations a ts ds visitor = .ok fused := by
    rcases hx : fuseAssociations a ts ds visitor with o | _ | _
    · exact ⟨o, rfl⟩
    · rw [hx] at hf; simp at hf
    · rw [hx] at hf; simp at hf
  obtain ⟨T, h⟩ := reachable_rel hr (by omega)
  obtain ⟨T', h', ho, hp, hrem, hnot, hin⟩ := cycleOn_rel (by omega) h hs hv hts hD hbig ha hfu
  refine ⟨ho, ?_⟩
  intro m'
  have hentry : ∀ u e', T'.entry u = some e' → ∃ e, T.entry u = some e ∧
      e'.count = Table.newCount T.promo (decide (u ∈ a.keys)) e.count ∧
      e'.confirmed = (e.confirmed || decide (T.promo ≤ e'.count)) := by
    intro u e' he'
    by_cases hu : u ∈ a.keys
    · obtain ⟨e, t, -, y, -, f, he, -, -, -, -, hv⟩ := hin u hu
      rw [hv] at he'
      simp only [Table.updateEntry] at he'
      split at he'
      · cases he'
      · cases he'
        exact ⟨e, he, by simp only [decide_eq_true hu], rfl⟩
    · rw [hnot u hu] at he'
      obtain ⟨e, he, hv⟩ := Option.bind_eq_some_iff.1 he'
      simp only [Table.updateEntry] at hv
      split at hv
      · cases hv
      · cases hv
        exact ⟨e, he, by simp only [decide_eq_false hu], rfl⟩
  refine ⟨?_, ?_, ?_, ?_, ?_, ?_⟩
  · intro u hu
    obtain ⟨e, t, ht, y, hy, f, he, hes, htu, hl, hv, hT⟩ := hin u hu
    refine ⟨e.track, t, ht, h.hasTrack.2 ⟨e, he, rfl⟩, hes, htu, y, hy, hl, f, hv, fun t' => ?_⟩
    rw [h'.hasTrack, hT, h.counter_some (by omega) he, h.promo, h.removal]
    simp only [Table.updateEntry, Table.newCount, if_true]
    split
    · simp only [reduceCtorEq, false_and, exists_false, false_iff, not_and, not_lt]
      intro _; assumption
    · simp only [Option.some.injEq, exists_eq_left']
      constructor
      · intro h; exact ⟨h.symm, by omega⟩
      · intro h; exact h.1.symm
  · intro u hu t'
    rw [h'.hasTrack, hnot u hu, h.hasTrack]
    rcases he : T.entry u with _ | e
    · simp
    · rw [h.counter_some (by omega) he, h.removal]
      simp only [Option.bind_some, Table.updateEntry, Table.newCount, Bool.false_eq_true, if_false]
      split
      · simp only [reduceCtorEq, false_and, exists_false, Option.some.injEq, exists_eq_left',
          false_iff, not_and, not_lt]
        intro _; assumption
      · simp only [Option.some.injEq, exists_eq_left']
        constructor
        · intro h; exact ⟨h, by omega⟩
        · intro h; exact h.1
  · intro u hu
    obtain ⟨e', he'⟩ := h'.managed.1 hu
    obtain ⟨e, he, hc, -⟩ := hentry u e' he'
    rw [h'.counter_some (by omega) he', h.counter_some (by omega) he, h.promo, hc]
    simp only [Table.newCount, decide_eq_true_eq]
  · intro u
    rw [h'.confirmed, h'.managed, h.confirmed]
    constructor
    · rintro ⟨e', he', hc'⟩
      obtain ⟨e, he, hc, hcf⟩ := hentry u e' he'
      refine ⟨⟨e', he'⟩, ?_⟩
      rw [hcf, Bool.or_eq_true, decide_eq_true_eq] at hc'
      rw [h'.counter_some (by omega) he', h.promo]
      exact hc'.imp (fun h => ⟨e, he, h⟩) id
    · rintro ⟨⟨e', he'⟩, hor⟩
      obtain ⟨e, he, hc, hcf⟩ := hentry u e' he'
      refine ⟨e', he', ?_⟩
      rw [h'.counter_some (by omega) he', h.promo] at hor
      rw [hcf, Bool.or_eq_true, decide_eq_true_eq]
      refine hor.imp (fun ⟨e₂, h1, h2⟩ => ?_) id
      rw [he] at h1; cases h1; exact h2
  · rw [h'.promo, hp, h.promo]
  · rw [h'.removal, hrem, h.removal]

theorem cycleOn_not_throw {n : ℕ} {m : Manager (Obj2 S₁ C₁ S₂ C₂)} (hr : ReachableIn _ _ n m)
    (hn : n + 3 < 2 ^ 64) {solve : Solver} (hs : IsPermSolver solve)
    {metric : Obj2 S₁ C₁ S₂ C₂ → Obj2 S₁ C₁ S₂ C₂ → Option FP} {gate : FP → Bool}
    {visitor : Obj2 S₁ C₁ S₂ C₂ → Obj2 S₁ C₁ S₂ C₂ → Outcome (Obj2 S₁ C₁ S₂ C₂)}
    (hv : ∀ t d f, visitor t d = .ok f → SameObject t f)
    (hnt : ∀ t d e, visitor t d ≠ .throw e) {ts ds : List (Obj2 S₁ C₁ S₂ C₂)}
    (hts : List.Forall₂ SameObject m.getAllTracks ts) (hD : (ds.map TrackOps.uuid).Nodup)
    (hbig : ts.length * ds.length < 2 ^ 64) :
    (cycleOn solve metric gate visitor ts ds m).2.IsOk ∨
    ((cycleOn solve metric gate visitor ts ds m).2.IsUb ∧
      ((associateStep solve metric gate ts ds).IsUb ∨
        ∃ a, associateStep solve metric gate ts ds = .ok a ∧
          (fuseAssociations a ts ds visitor).IsUb)) := by
  have hbig' : (pruneScoresIf (scoreTracksAndDetections ts ds metric) gate).entries.length
      < 2 ^ 64 :=
    lt_of_le_of_lt ((prune_length_le _ _).trans (score_length_le _ _ _)) hbig
  rcases gnn_cases hs hbig' with ⟨-, h⟩ | ⟨a, -, -, -, h, -⟩
  · right
    change (associateStep solve metric gate ts ds).IsUb at h
    refine ⟨?_, .inl h⟩
    unfold cycleOn
    rcases hx : associateStep solve metric gate ts ds with _ | _ | _
    · rw [hx] at h; simp at h
    · rw [hx] at h; simp at h
    · simp
  · change associateStep solve metric gate ts ds = .ok a at h
    rcases fuseAssociations_not_throw hnt a ts ds with ⟨out, ho⟩ | hub
    · left
      rw [(cycleOn_observed hr hn hs hv hts hD hbig h (by rw [ho]; simp)).1]
      simp
    · right
      refine ⟨?_, .inr ⟨a, h, hub⟩⟩
      unfold cycleOn
      rw [h]
      rcases hx : fuseAssociations a ts ds visitor with _ | _ | _
      · rw [hx] at hub; simp at hub
      · rw [hx] at hub; simp at hub
      · simp [hx]

end

end Mot
