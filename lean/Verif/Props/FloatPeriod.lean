import Verif.Spec.FloatPeriod
import Verif.Props.FloatPipeline
/-!
# When a period as it is computed goes wrong, and when it does not (C128)
-/

namespace Mot.Props

open Mot Spec Manager

section
variable {S₁ C₁ S₂ C₂ : Type}

/-- C128: scoring, gating and associating objects with distinct UUIDs either succeeds or is undefined; it is undefined exactly if
no pair is left, or one that is left has a score that is not finite, or all that are left have score 0 and form a full
rectangle. -/
theorem C128_associate {solve : Solver} (hs : IsPermSolver solve) {ts ds : List (Obj2 S₁ C₁ S₂ C₂)}
    (hT : (ts.map TrackOps.uuid).Nodup) (hD : (ds.map TrackOps.uuid).Nodup) (hbig : ts.length * ds.length < 2 ^ 64)
    {metric : Obj2 S₁ C₁ S₂ C₂ → Obj2 S₁ C₁ S₂ C₂ → Option FP} (gate : FP → Bool)
    (hr : ∀ t ∈ ts, ∀ d ∈ ds, ∀ q, metric t d = some (.fin q) → 0 ≤ q ∧ q ≤ fltMaxQ) :
    ((associateStep solve metric gate ts ds).IsUb ↔
      AllGated metric gate ts ds ∨ SomeNotFinite metric gate ts ds ∨ AllZero metric gate ts ds) ∧
    ((associateStep solve metric gate ts ds).IsUb ∨ (associateStep solve metric gate ts ds).IsOk) := by
  set scores := pruneScoresIf (scoreTracksAndDetections ts ds metric) gate with hsc
  have hlen : scores.entries.length < 2 ^ 64 :=
    lt_of_le_of_lt ((prune_length_le _ _).trans (score_length_le _ _ _)) hbig
  have val : ∀ k s, scores.find? k = some s ↔ ∃ t ∈ ts, ∃ d ∈ ds, k = mkPair (TrackOps.uuid t) (TrackOps.uuid d) ∧
      metric t d = some s ∧ gate s = false := by
    intro k s
    rw [hsc, C18_prune_iff]
    constructor
    · rintro ⟨h, hg⟩
      obtain ⟨t, ht, d, hd, e1, e2, -⟩ := (C16_entry_iff ts ds metric (ofLex k).1 (ofLex k).2).1
        (Option.isSome_iff_exists.2 ⟨s, h⟩)
      have e : k = mkPair (TrackOps.uuid t) (TrackOps.uuid d) := by rw [e1, e2]; rfl
      refine ⟨t, ht, d, hd, e, ?_, hg⟩
      rw [← C16_value_of_distinct ts ds metric hT hD ht hd, ← e]
      exact h
    · rintro ⟨t, ht, d, hd, rfl, h, hg⟩
      exact ⟨by rw [C16_value_of_distinct ts ds metric hT hD ht hd, h], hg⟩
  have scored : ∀ t ∈ ts, ∀ d ∈ ds, (Scored scores (TrackOps.uuid t) (TrackOps.uuid d) ↔ Open metric gate t d) := by
    intro t ht d hd
    rw [Scored, Option.isSome_iff_exists]
    constructor
    · rintro ⟨s, h⟩
      obtain ⟨t', ht', d', hd', e, h1, h2⟩ := (val _ _).1 h
      have e := toLex.injective e
      rw [Prod.mk.injEq] at e
      obtain rfl := List.inj_on_of_nodup_map hT ht ht' e.1
      obtain rfl := List.inj_on_of_nodup_map hD hd hd' e.2
      exact ⟨s, h1, h2⟩
    · rintro ⟨s, h1, h2⟩
      exact ⟨s, (val _ _).2 ⟨t, ht, d, hd, rfl, h1, h2⟩⟩
  have names : ∀ u v, Scored scores u v → ∃ t ∈ ts, ∃ d ∈ ds, TrackOps.uuid t = u ∧ TrackOps.uuid d = v := by
    intro u v h
    obtain ⟨s, h⟩ := Option.isSome_iff_exists.1 h
    obtain ⟨t, ht, d, hd, e, -⟩ := (val _ _).1 h
    have e := toLex.injective e
    rw [Prod.mk.injEq] at e
    exact ⟨t, ht, d, hd, e.1.symm, e.2.symm⟩
  have step : ((associateStep solve metric gate ts ds).IsUb ↔ (gnnAssociator solve scores).IsUb) ∧
      ((associateStep solve metric gate ts ds).IsOk ↔ (gnnAssociator solve scores).IsOk) := by
    unfold associateStep associateDetectionsToTracks
    rw [← hsc]
    rcases gnnAssociator solve scores with _ | _ | _ <;> simp
  obtain ⟨h1, h2⟩ := C23_ub_iff hs scores hlen fun k q hk => by
    obtain ⟨t, ht, d, hd, -, h, -⟩ := (val _ _).1 hk
    exact hr t ht d hd q h
  rw [step.1, step.2]
  refine ⟨h1.trans (or_congr ?_ (or_congr ?_ ?_)), h2⟩
  · constructor
    · rintro he t ht d hd ⟨s, h⟩
      have := SMap.find?_eq_some.1 ((val _ _).2 ⟨t, ht, d, hd, rfl, h⟩)
      rw [he] at this
      simp at this
    · intro h
      by_contra hne
      obtain ⟨⟨k, s⟩, l, hl⟩ := List.exists_cons_of_ne_nil hne
      have hk : scores.find? k = some s := SMap.find?_eq_some.2 (by rw [hl]; simp)
      obtain ⟨t, ht, d, hd, -, h'⟩ := (val _ _).1 hk
      exact h t ht d hd ⟨s, h'⟩
  · constructor
    · rintro ⟨k, s, hk, hn⟩
      obtain ⟨t, ht, d, hd, -, h1, h2⟩ := (val _ _).1 hk
      exact ⟨t, ht, d, hd, s, h1, h2, hn⟩
    · rintro ⟨t, ht, d, hd, s, h1, h2, hn⟩
      exact ⟨_, s, (val _ _).2 ⟨t, ht, d, hd, rfl, h1, h2⟩, hn⟩
  · constructor
    · rintro ⟨hc, hz⟩ t ht d hd ⟨d', hd', o1⟩ ⟨t', ht', o2⟩
      obtain ⟨s, h1, h2⟩ := (scored t ht d hd).1 (hc _ _ ⟨_, (scored t ht d' hd').2 o1⟩ ⟨_, (scored t' ht' d hd).2 o2⟩)
      obtain rfl := hz _ s ((val _ _).2 ⟨t, ht, d, hd, rfl, h1, h2⟩)
      exact ⟨h1, h2⟩
    · intro h
      constructor
      · rintro u v ⟨v', h1⟩ ⟨u', h2⟩
        obtain ⟨t, ht, d', hd', rfl, rfl⟩ := names _ _ h1
        obtain ⟨t', ht', d, hd, rfl, rfl⟩ := names _ _ h2
        obtain ⟨z1, z2⟩ := h t ht d hd ⟨d', hd', (scored _ ht _ hd').1 h1⟩ ⟨t', ht', (scored _ ht' _ hd).1 h2⟩
        exact (scored t ht d hd).2 ⟨_, z1, z2⟩
      · intro k s hk
        obtain ⟨t, ht, d, hd, -, h1, h2⟩ := (val _ _).1 hk
        have := (h t ht d hd ⟨d, hd, s, h1, h2⟩ ⟨t, ht, s, h1, h2⟩).1
        rw [h1] at this
        exact Option.some.inj this

/-- C128: a period with new detections (distinct UUIDs, none of a managed track), predicted to `ds'` and `ts'`, completes or is
undefined.  It is undefined exactly if the association is, see `C128_associate`, or if it pairs objects of different kinds.
Objects of one kind can be fused; to fuse others is undefined. -/
theorem C128_period {n : ℕ} {m : Manager (Obj2 S₁ C₁ S₂ C₂)} (hr : ReachableIn _ _ n m) (hn : n + 3 < 2 ^ 64)
    {solve : Solver} (hs : IsPermSolver solve) {metric : Obj2 S₁ C₁ S₂ C₂ → Obj2 S₁ C₁ S₂ C₂ → Option FP} (gate : FP → Bool)
    {visitor : Obj2 S₁ C₁ S₂ C₂ → Obj2 S₁ C₁ S₂ C₂ → Outcome (Obj2 S₁ C₁ S₂ C₂)}
    (hv : ∀ t d f, visitor t d = .ok f → SameObject t f) (hk : ∀ t d, t.isLeft = d.isLeft → (visitor t d).IsOk)
    (hx : ∀ t d, t.isLeft ≠ d.isLeft → (visitor t d).IsUb)
    {align : Obj2 S₁ C₁ S₂ C₂ → Outcome (Obj2 S₁ C₁ S₂ C₂)} (hal : ∀ o o', align o = .ok o' → SameObject o o')
    {ds ds' ts' : List (Obj2 S₁ C₁ S₂ C₂)} (hds : (ds.map TrackOps.uuid).Nodup)
    (hbig : m.getAllTracks.length * ds.length < 2 ^ 64) (hnew : ∀ d ∈ ds, ¬ m.Managed (TrackOps.uuid d))
    (hd : List.Forall₂ (fun o o' => align o = .ok o') ds ds')
    (ht : List.Forall₂ (fun o o' => align o = .ok o') m.getAllTracks ts')
    (hq : ∀ t ∈ ts', ∀ d ∈ ds', ∀ q, metric t d = some (.fin q) → 0 ≤ q ∧ q ≤ fltMaxQ) :
    ((period solve metric gate visitor makeTrack2 align ds m).2.IsUb ↔
      AllGated metric gate ts' ds' ∨ SomeNotFinite metric gate ts' ds' ∨ AllZero metric gate ts' ds' ∨
      ∃ a, associateStep solve metric gate ts' ds' = .ok a ∧
        ∃ p ∈ associatedPairs a ts' ds', p.1.isLeft ≠ p.2.isLeft) ∧
    ((period solve metric gate visitor makeTrack2 align ds m).2.IsUb ∨
      (period solve metric gate visitor makeTrack2 align ds m).2.IsOk) := by
  have hnt : ∀ t d e, visitor t d ≠ .throw e := by
    intro t d e h
    by_cases hb : t.isLeft = d.isLeft
    · have := hk t d hb
      rw [h] at this; simp at this
    · have := hx t d hb
      rw [h] at this; simp at this
  have hd' : List.Forall₂ SameObject ds ds' := hd.imp fun x y => hal x y
  have ht' : List.Forall₂ SameObject m.getAllTracks ts' := ht.imp fun x y => hal x y
  have hds' : (ds'.map TrackOps.uuid).Nodup := by rw [SameObject.uuids hd']; exact hds
  have hbig' : ts'.length * ds'.length < 2 ^ 64 := by rw [← ht'.length_eq, ← hd'.length_eq]; exact hbig
  obtain ⟨T, hrel⟩ := reachable_rel hr (by omega)
  have hts' : (ts'.map TrackOps.uuid).Nodup := by rw [SameObject.uuids ht']; exact hrel.nodup
  obtain ⟨h1, h2⟩ := C128_associate hs hts' hds' hbig' gate hq
  have fuse : ∀ a, (fuseAssociations a ts' ds' visitor).IsUb ↔ ∃ p ∈ associatedPairs a ts' ds', p.1.isLeft ≠ p.2.isLeft := by
    intro a
    constructor
    · intro h
      obtain ⟨pre, p, post, hp, -, hb⟩ := C29_failure a ts' ds' visitor fun out e => by rw [e] at h; simp at h
      refine ⟨p, by rw [hp]; simp, fun he => ?_⟩
      have := hk _ _ he
      rcases hb with ⟨e, h, -⟩ | ⟨w, h, -⟩ <;> rw [h] at this <;> simp at this
    · rintro ⟨p, hp, hne⟩
      rcases he : fuseAssociations a ts' ds' visitor with out | e | w
      · rw [C29_exactly_the_pairs] at he
        obtain ⟨f, -, hf⟩ := forall₂_partner he hp
        have := hx _ _ hne
        rw [hf] at this; simp at this
      · obtain ⟨_, q, _, -, -, ⟨e', h, -⟩ | ⟨w, -, h⟩⟩ := C29_failure a ts' ds' visitor fun out e' => by rw [e'] at he; cases he
        · exact absurd h (hnt _ _ _)
        · rw [he] at h; cases h
      · simp
  have main : ((period solve metric gate visitor makeTrack2 align ds m).2.IsOk ∧
        ∃ a, associateStep solve metric gate ts' ds' = .ok a ∧ (fuseAssociations a ts' ds' visitor).IsOk) ∨
      ((period solve metric gate visitor makeTrack2 align ds m).2.IsUb ∧
        ((associateStep solve metric gate ts' ds').IsUb ∨
          ∃ a, associateStep solve metric gate ts' ds' = .ok a ∧ (fuseAssociations a ts' ds' visitor).IsUb)) := by
    rcases cycleOn_not_throw hr hn hs (metric := metric) (gate := gate) hv hnt ht' hds' hbig' with ho | ⟨hu, hw⟩
    · left
      rcases hc : cycleOn solve metric gate visitor ts' ds' m with ⟨m₁, a | e | w⟩
      · obtain ⟨ha, fused, hf⟩ := cycleOn_ok hc
        have hf' : (fuseAssociations a ts' ds' visitor).IsOk := by rw [hf]; simp
        have := (C100_completes_iff hr hn hs metric gate hv hal hds hbig a).2
          ⟨ds', ts', hd, ht, ha, hf', fun d hdm _ hm => absurd hm (hnew d hdm)⟩
        exact ⟨by rw [this]; simp, a, ha, hf'⟩
      · rw [hc] at ho; simp at ho
      · rw [hc] at ho; simp at ho
    · right
      refine ⟨?_, hw⟩
      unfold period
      rw [Outcome.mapM'_ok_iff.2 hd, Outcome.mapM'_ok_iff.2 ht]
      simp only
      rw [Act.andThen]
      rcases hc : cycleOn solve metric gate visitor ts' ds' m with ⟨m₁, a | e | w⟩
      · rw [hc] at hu; simp at hu
      · rw [hc] at hu; simp at hu
      · simp
  have two : ∀ {β : Type} (x : Outcome β), x.IsOk → ¬ x.IsUb := by
    rintro β (_ | _ | _) h h' <;> simp at h h'
  constructor
  · rw [← or_assoc, ← or_assoc, or_assoc (a := AllGated metric gate ts' ds'), ← h1]
    simp only [← fuse]
    constructor
    · intro h
      rcases main with ⟨h', -⟩ | ⟨-, h'⟩
      · exact absurd h (two _ h')
      · exact h'
    · intro h
      rcases main with ⟨-, a, ha, hf⟩ | ⟨h', -⟩
      · rcases h with h | ⟨a', ha', hf'⟩
        · rw [ha] at h; simp at h
        · rw [ha] at ha'; cases ha'
          exact absurd hf' (two _ hf)
      · exact h'
  · rcases main with ⟨h, -⟩ | ⟨h, -⟩
    · exact .inr h
    · exact .inl h

/-- C128: with objects of one kind only the pairs matter. -/
theorem C128_one_kind {n : ℕ} {m : Manager (Obj2 S₁ C₁ S₂ C₂)} (hr : ReachableIn _ _ n m) (hn : n + 3 < 2 ^ 64)
    {solve : Solver} (hs : IsPermSolver solve) {metric : Obj2 S₁ C₁ S₂ C₂ → Obj2 S₁ C₁ S₂ C₂ → Option FP} (gate : FP → Bool)
    {visitor : Obj2 S₁ C₁ S₂ C₂ → Obj2 S₁ C₁ S₂ C₂ → Outcome (Obj2 S₁ C₁ S₂ C₂)}
    (hv : ∀ t d f, visitor t d = .ok f → SameObject t f) (hk : ∀ t d, t.isLeft = d.isLeft → (visitor t d).IsOk)
    (hx : ∀ t d, t.isLeft ≠ d.isLeft → (visitor t d).IsUb)
    {align : Obj2 S₁ C₁ S₂ C₂ → Outcome (Obj2 S₁ C₁ S₂ C₂)} (hal : ∀ o o', align o = .ok o' → SameObject o o')
    {ds ds' ts' : List (Obj2 S₁ C₁ S₂ C₂)} (hds : (ds.map TrackOps.uuid).Nodup)
    (hbig : m.getAllTracks.length * ds.length < 2 ^ 64) (hnew : ∀ d ∈ ds, ¬ m.Managed (TrackOps.uuid d))
    (hd : List.Forall₂ (fun o o' => align o = .ok o') ds ds')
    (ht : List.Forall₂ (fun o o' => align o = .ok o') m.getAllTracks ts')
    (hq : ∀ t ∈ ts', ∀ d ∈ ds', ∀ q, metric t d = some (.fin q) → 0 ≤ q ∧ q ≤ fltMaxQ) {b : Bool}
    (hone : ∀ o ∈ ts' ++ ds', o.isLeft = b) :
    ((period solve metric gate visitor makeTrack2 align ds m).2.IsUb ↔
      AllGated metric gate ts' ds' ∨ SomeNotFinite metric gate ts' ds' ∨ AllZero metric gate ts' ds') ∧
    ((period solve metric gate visitor makeTrack2 align ds m).2.IsUb ∨
      (period solve metric gate visitor makeTrack2 align ds m).2.IsOk) := by
  obtain ⟨h1, h2⟩ := C128_period hr hn hs gate hv hk hx hal hds hbig hnew hd ht hq
  refine ⟨h1.trans (or_congr_right (or_congr_right (or_iff_left ?_))), h2⟩
  rintro ⟨a, -, p, hp, hne⟩
  obtain ⟨h3, h4, -⟩ := (mem_associatedPairs a ts' ds' p.1 p.2).1 hp
  exact hne ((hone _ (List.mem_append_left _ h3)).trans (hone _ (List.mem_append_right _ h4)).symm)

/-- finite Euclidean scores are in range -/
private theorem euclid_range {pose₁ : S₁ → FPose} {pose₂ : S₂ → FPose} {t d : Obj2 S₁ C₁ S₂ C₂} {q : ℚ}
    (h : euclidMetric pose₁ pose₂ t d = some (.fin q)) : 0 ≤ q ∧ q ≤ fltMaxQ := by
  have key : ∀ a b : FPose, euclidF a b = .fin q → 0 ≤ q ∧ q ≤ fltMaxQ := by
    intro a b h
    rcases euclidF_cases a b with h' | h' | ⟨q', h', hq⟩ <;> rw [h'] at h <;> cases h
    exact hq
  rcases t with t | t <;> rcases d with d | d
  · exact key _ _ (Option.some.inj h)
  · cases h
  · cases h
  · exact key _ _ (Option.some.inj h)

/-- scores of finite poses that are not huge are finite -/
private theorem euclid_finite {pose₁ : S₁ → FPose} {pose₂ : S₂ → FPose} {ts ds : List (Obj2 S₁ C₁ S₂ C₂)} {gate : FP → Bool}
    (h : ∀ o ∈ ts ++ ds, ∃ a, poseOf pose₁ pose₂ o = finPose a ∧ ∀ i, |a i| ≤ 2 ^ 60) :
    ¬ SomeNotFinite (euclidMetric pose₁ pose₂) gate ts ds := by
  rintro ⟨t, ht, d, hd, s, h1, -, h2⟩
  obtain ⟨a, ha, ha'⟩ := h t (List.mem_append_left _ ht)
  obtain ⟨b, hb, hb'⟩ := h d (List.mem_append_right _ hd)
  obtain ⟨r, hr, -⟩ := C85_accuracy (2 ^ 60) (by norm_num) le_rfl a b ha' hb'
  rw [← ha, ← hb] at hr
  rcases t with t | t <;> rcases d with d | d
  · exact h2 r ((Option.some.inj h1).symm.trans hr)
  · cases h1
  · cases h1
  · exact h2 r ((Option.some.inj h1).symm.trans hr)

/-- C128: with the Euclidean metric and poses that are finite and not huge, a period is undefined exactly if no pair is left, or
all that are left form a full rectangle of zeros, or objects of different kinds are paired.  So it completes if all objects are of
one kind and some pair that is not gated out has a score other than 0. -/
theorem C128_euclid {n : ℕ} {m : Manager (Obj2 S₁ C₁ S₂ C₂)} (hr : ReachableIn _ _ n m) (hn : n + 3 < 2 ^ 64)
    {solve : Solver} (hs : IsPermSolver solve) (pose₁ : S₁ → FPose) (pose₂ : S₂ → FPose) (gate : FP → Bool)
    {visitor : Obj2 S₁ C₁ S₂ C₂ → Obj2 S₁ C₁ S₂ C₂ → Outcome (Obj2 S₁ C₁ S₂ C₂)}
    (hv : ∀ t d f, visitor t d = .ok f → SameObject t f) (hk : ∀ t d, t.isLeft = d.isLeft → (visitor t d).IsOk)
    (hx : ∀ t d, t.isLeft ≠ d.isLeft → (visitor t d).IsUb)
    {align : Obj2 S₁ C₁ S₂ C₂ → Outcome (Obj2 S₁ C₁ S₂ C₂)} (hal : ∀ o o', align o = .ok o' → SameObject o o')
    {ds ds' ts' : List (Obj2 S₁ C₁ S₂ C₂)} (hds : (ds.map TrackOps.uuid).Nodup)
    (hbig : m.getAllTracks.length * ds.length < 2 ^ 64) (hnew : ∀ d ∈ ds, ¬ m.Managed (TrackOps.uuid d))
    (hd : List.Forall₂ (fun o o' => align o = .ok o') ds ds')
    (ht : List.Forall₂ (fun o o' => align o = .ok o') m.getAllTracks ts')
    (hp : ∀ o ∈ ts' ++ ds', ∃ a, poseOf pose₁ pose₂ o = finPose a ∧ ∀ i, |a i| ≤ 2 ^ 60) :
    let metric := euclidMetric (C₁ := C₁) (C₂ := C₂) pose₁ pose₂
    let result := (period solve metric gate visitor makeTrack2 align ds m).2
    (result.IsUb ↔ AllGated metric gate ts' ds' ∨ AllZero metric gate ts' ds' ∨
      ∃ a, associateStep solve metric gate ts' ds' = .ok a ∧
        ∃ p ∈ associatedPairs a ts' ds', p.1.isLeft ≠ p.2.isLeft) ∧
    ((∃ b, ∀ o ∈ ts' ++ ds', o.isLeft = b) →
      (∃ t ∈ ts', ∃ d ∈ ds', Open metric gate t d ∧ metric t d ≠ some (.fin 0)) → result.IsOk) := by
  intro metric result
  have hq : ∀ t ∈ ts', ∀ d ∈ ds', ∀ q, metric t d = some (.fin q) → 0 ≤ q ∧ q ≤ fltMaxQ :=
    fun t _ d _ q h => euclid_range h
  have hfin := euclid_finite (gate := gate) hp
  obtain ⟨h1, -⟩ := C128_period hr hn hs gate hv hk hx hal hds hbig hnew hd ht hq
  refine ⟨h1.trans (or_congr_right (or_iff_right hfin)), ?_⟩
  rintro ⟨b, hone⟩ ⟨t, htm, d, hdm, ho, hz⟩
  obtain ⟨h2, h3⟩ := C128_one_kind hr hn hs gate hv hk hx hal hds hbig hnew hd ht hq hone
  refine h3.resolve_left fun hu => ?_
  rcases h2.1 hu with h | h | h
  · exact h t htm d hdm ho
  · exact hfin h
  · exact hz (h t htm d hdm ⟨d, hdm, ho⟩ ⟨t, htm, ho⟩).1

end

/-! ### Examples -/

theorem fuseSame_ok (t d : FObj plainLibm) (h : t.isLeft = d.isLeft) : (fuseSame t d).IsOk := by
  have : ∃ f, FusesF diagonalEigen t d f := by
    rcases t with t | t <;> rcases d with d | d
    · obtain ⟨f, hf⟩ := C98_exists (by norm_num) diagonalEigen t d
      exact ⟨_, .ctrv hf⟩
    · cases h
    · cases h
    · obtain ⟨f, hf⟩ := C98_exists (by norm_num) diagonalEigen t d
      exact ⟨_, .ctra hf⟩
  unfold fuseSame
  rw [dif_pos this]
  simp

theorem fuseSame_ub (t d : FObj plainLibm) (h : t.isLeft ≠ d.isLeft) : (fuseSame t d).IsUb := by
  have : ¬ ∃ f, FusesF diagonalEigen t d f := by
    rintro ⟨f, hf⟩
    cases hf <;> exact h rfl
  unfold fuseSame
  rw [dif_neg this]
  simp

/-- A track at (10, 20) and a detection at (11, 20).  With a gate of 5 m the period completes, with one of 1/2 m it does not. -/
example {solve : Solver} (hs : IsPermSolver solve) :
    let run := fun g : ℚ => period solve (euclidMetric CtrvStateF.pose CtraStateF.pose) (fun s => FP.gt s (.fin g)) fuseSame
      makeTrack2 (fun o => .ok (stay o)) [preciseObj 2 11] (addTentativeTrack (preciseObj 1 10) (Manager.new 3 0)).1
    (run 5).2.IsOk ∧ (run (1 / 2)).2.IsUb := by
  intro run
  have hr : ReachableIn _ _ 0 (addTentativeTrack (preciseObj 1 10) (Manager.new 3 0)).1 :=
    reachable_step (⟨3, 0, [], [], .nil (Reordered.refl _), rfl⟩ :
      ReachableIn _ _ 0 (Manager.new 3 0 : Manager (FObj plainLibm))) (.add (preciseObj 1 10))
  have hm : (addTentativeTrack (preciseObj 1 10) (Manager.new 3 0)).1.getAllTracks = [preciseObj 1 10] := rfl
  have score : euclidMetric CtrvStateF.pose CtraStateF.pose (stay (preciseObj 1 10)) (stay (preciseObj 2 11)) = some (.fin 1) := by
    decide +kernel
  have pose : ∀ o ∈ [stay (preciseObj 1 10)] ++ [stay (preciseObj 2 11)],
      ∃ a, poseOf CtrvStateF.pose CtraStateF.pose o = finPose a ∧ ∀ i, |a i| ≤ 2 ^ 60 := by
    have h1 : (stay (preciseObj 1 10)).isLeft ∧ poseOf CtrvStateF.pose CtraStateF.pose (stay (preciseObj 1 10)) =
        finPose ![10, 20, 1] := by decide +kernel
    have h2 : poseOf CtrvStateF.pose CtraStateF.pose (stay (preciseObj 2 11)) = finPose ![11, 20, 1] := by decide +kernel
    intro o ho
    simp only [List.mem_append, List.mem_singleton] at ho
    rcases ho with rfl | rfl
    · exact ⟨_, h1.2, by intro i; fin_cases i <;> norm_num⟩
    · exact ⟨_, h2, by intro i; fin_cases i <;> norm_num⟩
  have key := fun g : ℚ => C128_euclid hr (by norm_num) hs CtrvStateF.pose CtraStateF.pose (fun s => FP.gt s (.fin g))
    (fun t d f hf => (fuseSame_fuses t d f hf).same) fuseSame_ok fuseSame_ub
    (align := fun o => .ok (stay o)) (by rintro o _ ⟨⟩; exact (stay_predicts o).same)
    (ds := [preciseObj 2 11]) (by simp) (by rw [hm]; simp) (by
      rintro d hd ⟨t, ht, hu⟩
      rw [hm, List.mem_singleton] at ht
      rw [List.mem_singleton] at hd
      subst ht hd
      exact absurd hu (show (⟨[1]⟩ : Uuid) ≠ ⟨[2]⟩ by decide +kernel)) (.cons rfl .nil) (.cons rfl .nil) pose
  constructor
  · refine (key 5).2 ⟨true, ?_⟩ ⟨_, List.mem_singleton.2 rfl, _, List.mem_singleton.2 rfl, ⟨_, score, by decide +kernel⟩, ?_⟩
    · intro o ho
      simp only [List.mem_append, List.mem_singleton] at ho
      rcases ho with rfl | rfl <;> rfl
    · rw [score]
      decide +kernel
  · refine (key (1 / 2)).1.2 (.inl ?_)
    intro t ht d hd
    rw [List.mem_singleton] at ht hd
    subst ht hd
    rintro ⟨s, h1, h2⟩
    rw [score] at h1
    cases h1
    exact absurd h2 (by decide +kernel)

end Mot.Props
