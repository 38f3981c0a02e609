import Verif.Props.Doubling
import Verif.Props.Period
/-!
# The uncertainty of all tracks stays bounded (C110)

In exact real arithmetic.
-/

namespace Mot.Props

open Mot Spec Manager Matrix

/-- what holds of started and of fused tracks holds of all tracks after any number of periods -/
private theorem periods_invariant {S₁ C₁ S₂ C₂ : Type} {n : ℕ} {m m' : Manager (Obj2 S₁ C₁ S₂ C₂)}
    (hr : ReachableIn _ _ n m)
    {visitor : Obj2 S₁ C₁ S₂ C₂ → Obj2 S₁ C₁ S₂ C₂ → Outcome (Obj2 S₁ C₁ S₂ C₂)}
    (hv : ∀ t d f, visitor t d = .ok f → SameObject t f)
    {align : ℝ → Obj2 S₁ C₁ S₂ C₂ → Outcome (Obj2 S₁ C₁ S₂ C₂)}
    (hal : ∀ time o o', align time o = .ok o' → SameObject o o')
    {l : List (PeriodLog (Obj2 S₁ C₁ S₂ C₂))} (h : Periods visitor makeTrack2 align m l m')
    (hn : n + l.length + 3 < 2 ^ 64) {I : Obj2 S₁ C₁ S₂ C₂ → Prop} (h0 : ∀ t ∈ m.getAllTracks, I t)
    (hstart : ∀ p ∈ l, ∀ d ∈ p.detections, ∀ y, align p.time d = .ok y → I (makeTrack2 y))
    (hfuse : ∀ p ∈ l, ∀ d ∈ p.detections, ∀ t x y f, I t → align p.time t = .ok x → align p.time d = .ok y →
      visitor x y = .ok f → I f) :
    ∀ t ∈ m'.getAllTracks, I t := by
  obtain ⟨T₀, h₀⟩ := reachable_rel hr (by omega)
  suffices key : ∃ T, Rel (n + l.length) m' T ∧ ∀ u e, T.entry u = some e → I e.track by
    obtain ⟨T, hT, hk⟩ := key
    intro t ht
    obtain ⟨e, he, rfl⟩ := hT.hasTrack.1 (show m'.HasTrack (TrackOps.uuid t) t from ⟨ht, rfl⟩)
    exact hk _ e he
  induction h with
  | nil => exact ⟨T₀, h₀, fun u e he => h0 _ (h₀.hasTrack.2 ⟨e, he, rfl⟩).1⟩
  | @snoc m₁ m₂ l p _ solve hs metric gate hds hbig hp ih =>
    rw [List.length_append, List.length_singleton] at hn
    obtain ⟨T, hT, hk⟩ := ih (by omega) (fun p hp => hstart p (List.mem_append_left _ hp))
      (fun p hp => hfuse p (List.mem_append_left _ hp))
    have hpm : p ∈ l ++ [p] := by simp
    obtain ⟨T', h', -, -, hst, hnot, hin⟩ := period_rel (by omega) hT hs hv (hal p.time) hds hbig hp
    refine ⟨T', ?_, ?_⟩
    · rw [List.length_append, List.length_singleton, ← Nat.add_assoc]
      exact h'
    · intro u e he
      by_cases hsu : Starts p.associations p.detections u
      · obtain ⟨d, hd, rfl, hda⟩ := hsu
        obtain ⟨y, hy, hT'⟩ := hst d hd hda
        rw [hT'] at he
        cases he
        exact hstart p hpm d hd y hy
      · have hns : ∀ d ∈ p.detections, TrackOps.uuid d = u → ¬ Unassociated p.associations d :=
          fun d hd e ha => hsu ⟨d, hd, e, ha⟩
        by_cases hu : u ∈ p.associations.keys
        · obtain ⟨e₀, x, d, hd, y, f, he₀, hx, hy, hl, hvf, hT'⟩ := hin u hns hu
          rw [hT'] at he
          simp only [Table.updateEntry] at he
          split at he
          · cases he
          · cases he
            exact hfuse p hpm d hd e₀.track x y f (hk u e₀ he₀) hx hy hvf
        · rw [hnot u hns hu] at he
          obtain ⟨e₀, he₀, hup⟩ := Option.bind_eq_some_iff.1 he
          simp only [Table.updateEntry] at hup
          split at hup
          · cases hup
          · cases hup
            exact hk u e₀ he₀

/-- a covariance that has an inverse and is positive semidefinite is positive definite -/
private theorem posDef_of_inverse {n : ℕ} {P A : Matrix (Fin n) (Fin n) ℝ} (h : P.PosSemidef) (hi : inverse? P = some A) :
    P.PosDef := by
  unfold inverse? at hi
  split at hi
  · rename_i hu
    exact h.posDef_iff_isUnit.2 ((isUnit_iff_isUnit_det _).2 hu)
  · cases hi

private theorem fusePair_invertible {S : Type} {n : ℕ} [MotionModel S n] {t d f : DynObj S (Matrix (Fin n) (Fin n) ℝ)}
    (h : fusePair t d = .ok f) : (∃ A, inverse? t.covariance = some A) ∧ ∃ A, inverse? d.covariance = some A := by
  unfold fusePair at h
  split at h
  · rename_i A B h1 h2
    exact ⟨⟨A, h1⟩, B, h2⟩
  · cases h

private theorem fuse_within {S : Type} {n : ℕ} [NeZero n] [MotionModel S n] {t d f : DynObj S (Matrix (Fin n) (Fin n) ℝ)}
    (ht : t.covariance.PosSemidef) (hd : d.covariance.PosSemidef) {R : Matrix (Fin n) (Fin n) ℝ}
    (hR : CovLE d.covariance R) (h : fusePair t d = .ok f) : f.covariance.PosSemidef ∧ CovLE f.covariance ((2 : ℝ) • R) := by
  obtain ⟨⟨A, hA⟩, B, hB⟩ := fusePair_invertible h
  have h1 := posDef_of_inverse ht hA
  have h2 := posDef_of_inverse hd hB
  obtain ⟨g, hg, -, hle⟩ := C107_twice t d h1 h2
  obtain ⟨g', -, hg', -, -, -, hp, -⟩ := C32_valid_covariance t d h1 h2
  rw [h] at hg hg'
  cases hg
  cases hg'
  refine ⟨hp.posSemidef, ?_⟩
  unfold CovLE at hR hle ⊢
  have := hle.add (hR.smul (show (0 : ℝ) ≤ 2 by norm_num))
  have e : (2 : ℝ) • d.covariance - f.covariance + (2 : ℝ) • (R - d.covariance) = (2 : ℝ) • R - f.covariance := by
    rw [smul_sub]; abel
  rwa [e] at this

/-- C110: if predicting preserves that covariances are positive semidefinite, and the covariances of the
detections, predicted to the time of their period, are positive semidefinite and at most `R₁` (CTRV) or
`R₂` (CTRA), then after any number of completed periods the covariance of every track is positive
semidefinite and at most twice that bound; however long the tracks were predicted, and however many
detections they were fused with. -/
theorem C110_bounded {n : ℕ} {m m' : Manager MotObj} (hr : ReachableIn _ _ n m)
    {align : ℝ → MotObj → Outcome MotObj} (hal : ∀ time o o', align time o = .ok o' → SameObject o o')
    (hpsd : ∀ time o o', CovSemidef o → align time o = .ok o' → CovSemidef o') {R₁ : CtrvCov} {R₂ : CtraCov}
    {l : List (PeriodLog MotObj)} (h : Periods ciVisitor makeTrack2 align m l m') (hn : n + l.length + 3 < 2 ^ 64)
    (hdet : ∀ p ∈ l, ∀ d ∈ p.detections, ∀ y, align p.time d = .ok y → CovSemidef y ∧ CovWithin R₁ R₂ y)
    (h0 : ∀ t ∈ m.getAllTracks, CovSemidef t ∧ CovWithin ((2 : ℝ) • R₁) ((2 : ℝ) • R₂) t) :
    ∀ t ∈ m'.getAllTracks, CovSemidef t ∧ CovWithin ((2 : ℝ) • R₁) ((2 : ℝ) • R₂) t := by
  refine periods_invariant hr (fun t d f hf => (C100_fuse_same t d f hf).1) hal h hn h0 ?_ ?_
  · intro p hp d hd y hy
    obtain ⟨h1, h2⟩ := hdet p hp d hd y hy
    have key : ∀ {k : ℕ} {P R : Matrix (Fin k) (Fin k) ℝ}, P.PosSemidef → CovLE P R → CovLE P ((2 : ℝ) • R) := by
      intro k P R hP hR
      unfold CovLE at hR ⊢
      have := (hR.add hR).add hP
      have e : R - P + (R - P) + P = (2 : ℝ) • R - P := by rw [two_smul]; abel
      rwa [e] at this
    cases y with
    | inl y => exact ⟨h1, key h1 h2⟩
    | inr y => exact ⟨h1, key h1 h2⟩
  · intro p hp d hd t x y f ht hx hy hf
    have h1 := hpsd _ _ _ ht.1 hx
    obtain ⟨h2, h3⟩ := hdet p hp d hd y hy
    match x, y, hf with
    | .inl x, .inl y, hf =>
      rcases hg : fusePair x y with g | _ | _
      · simp only [ciVisitor, hg] at hf
        cases hf
        exact fuse_within h1 h2 h3 hg
      · simp only [ciVisitor, hg] at hf; cases hf
      · simp only [ciVisitor, hg] at hf; cases hf
    | .inr x, .inr y, hf =>
      rcases hg : fusePair x y with g | _ | _
      · simp only [ciVisitor, hg] at hf
        cases hf
        exact fuse_within h1 h2 h3 hg
      · simp only [ciVisitor, hg] at hf; cases hf
      · simp only [ciVisitor, hg] at hf; cases hf
    | .inl _, .inr _, hf => cases hf
    | .inr _, .inl _, hf => cases hf

/-- the default propagator yields positive semidefinite covariances -/
private theorem defaultUt_semidef (chol : Chol) (time : ℝ) (o o' : MotObj)
    (h : predict2 o time (defaultUt chol) (defaultUt chol) = .ok o') : CovSemidef o' := by
  cases o with
  | inl o =>
    obtain ⟨p, hp, hs, -⟩ := C42_default chol o time
    have hv : propagate2 time (defaultUt chol) (defaultUt chol) (.inl o : MotObj) = (.inl p, .ok ()) := by
      unfold predict at hp
      unfold propagate2
      rcases hx : propagate time (defaultUt chol) o with ⟨q, _ | _ | _⟩
      · rw [hx] at hp
        cases hp
        simp only [hx]
      · rw [hx] at hp; cases hp
      · rw [hx] at hp; cases hp
    unfold predict2 at h
    rw [hv] at h
    cases h
    exact hs
  | inr o =>
    obtain ⟨p, hp, hs, -⟩ := C42_default chol o time
    have hv : propagate2 time (defaultUt chol) (defaultUt chol) (.inr o : MotObj) = (.inr p, .ok ()) := by
      unfold predict at hp
      unfold propagate2
      rcases hx : propagate time (defaultUt chol) o with ⟨q, _ | _ | _⟩
      · rw [hx] at hp
        cases hp
        simp only [hx]
      · rw [hx] at hp; cases hp
      · rw [hx] at hp; cases hp
    unfold predict2 at h
    rw [hv] at h
    cases h
    exact hs

/-- C110: with the library's default propagator and covariance intersection, starting from no tracks:
only the predicted detections need a bound. The variances of all tracks are at most twice the bounds
on the variances of the predicted detections. -/
theorem C110_library {promo removal : BitVec 64} {m' : Manager MotObj} (chol : Chol) {R₁ : CtrvCov} {R₂ : CtraCov}
    {l : List (PeriodLog MotObj)}
    (h : Periods ciVisitor makeTrack2 (fun time o => predict2 o time (defaultUt chol) (defaultUt chol))
      (Manager.new promo removal) l m') (hn : l.length + 3 < 2 ^ 64)
    (hdet : ∀ p ∈ l, ∀ d ∈ p.detections, ∀ y, predict2 d p.time (defaultUt chol) (defaultUt chol) = .ok y →
      CovWithin R₁ R₂ y) :
    ∀ t ∈ m'.getAllTracks, CovSemidef t ∧ CovWithin ((2 : ℝ) • R₁) ((2 : ℝ) • R₂) t ∧
      (∀ o, t = .inl o → ∀ i, o.covariance i i ≤ 2 * R₁ i i) ∧ ∀ o, t = .inr o → ∀ i, o.covariance i i ≤ 2 * R₂ i i := by
  intro t ht
  obtain ⟨h1, h2⟩ := C110_bounded (n := 0) ⟨promo, removal, [], [], .nil (Reordered.refl _), rfl⟩ (fun time o o' h => (C100_predict_same _ _ time o o' h).1)
    (fun time o o' _ h => defaultUt_semidef chol time o o' h) (R₁ := R₁) (R₂ := R₂) h (by omega)
    (fun p hp d hd y hy => ⟨defaultUt_semidef chol _ _ _ hy, hdet p hp d hd y hy⟩)
    (fun t ht => by simp [Manager.new, getAllTracks, UMap.empty] at ht) t ht
  have diag : ∀ {k : ℕ} {P R : Matrix (Fin k) (Fin k) ℝ}, CovLE P ((2 : ℝ) • R) → ∀ i, P i i ≤ 2 * R i i := by
    intro k P R h i
    have := h.diag_nonneg (i := i)
    simp only [Matrix.sub_apply, Matrix.smul_apply, smul_eq_mul] at this
    linarith
  refine ⟨h1, h2, ?_, ?_⟩
  · rintro o rfl
    exact diag h2
  · rintro o rfl
    exact diag h2

/-! ### Examples -/

/-- a period of one track, a CTRV detection and a CTRA detection, with unit covariances -/
example {solve : Solver} (hs : IsOptimalSolver solve) :
    ∃ m m' : Manager MotObj, ∃ l, Periods ciVisitor makeTrack2
      (fun time o => predict2 o time hold hold) m l m' ∧ ReachableIn _ _ 0 m ∧ l.length = 1 ∧
      (∃ t, m'.HasTrack ⟨[8]⟩ t) ∧
      ∀ t ∈ m'.getAllTracks, CovSemidef t ∧ CovWithin ((2 : ℝ) • 1) ((2 : ℝ) • 1) t := by
  obtain ⟨m', a, hr, hp, h1, h8⟩ := sample_period hs
  have hD : ([motCtrv 7, motCtra 8].map TrackOps.uuid).Nodup := by
    show [(⟨[7]⟩ : Uuid), ⟨[8]⟩].Nodup
    decide +kernel
  have hP := Periods.snoc (visitor := ciVisitor) (align := fun time o => predict2 o time hold hold)
    ⟨5, [motCtrv 7, motCtra 8], a⟩ (.nil (addTentativeTrack (motCtrv 1) (Manager.new 3 0)).1) hs.perm hD
    (show [motCtrv 1].length * [motCtrv 7, motCtra 8].length < 2 ^ 64 by simp) hp
  refine ⟨_, m', _, hP, hr, rfl, ?_, ?_⟩
  · obtain ⟨-, h2, -⟩ := C100_period hr (by simp) hs.perm ciVisitor_same
      (fun o o' h => (C100_predict_same hold hold 5 o o' h).1) hD (show [motCtrv 1].length * [motCtrv 7, motCtra 8].length < 2 ^ 64 by simp) hp
    obtain ⟨d, hd, hu, hda⟩ := h8
    obtain ⟨y, -, ht, -⟩ := h2 d hd hda
    rw [hu] at ht
    exact ⟨_, (ht _).2 rfl⟩
  · refine C110_bounded hr (fun time o o' h => (C100_predict_same _ _ time o o' h).1) ?_ hP (by simp) ?_ ?_
    · intro time o o' ho h
      rw [predict_hold] at h
      cases h
      cases o <;> exact ho
    · intro p hp d hd y hy
      simp only [List.nil_append, List.mem_singleton] at hp
      subst hp
      rw [predict_hold] at hy
      cases hy
      simp only [List.mem_cons, List.not_mem_nil, or_false] at hd
      have hI : ∀ k : ℕ, CovLE (1 : Matrix (Fin k) (Fin k) ℝ) 1 := fun k => by
        unfold CovLE; rw [sub_self]; exact PosSemidef.zero
      rcases hd with rfl | rfl
      · exact ⟨(sample_posDef 7).1.posSemidef, hI _⟩
      · exact ⟨(sample_posDef 8).2.posSemidef, hI _⟩
    · intro t ht
      have : t = motCtrv 1 := List.mem_singleton.1 (show t ∈ [motCtrv 1] from ht)
      subst this
      refine ⟨(sample_posDef 1).1.posSemidef, ?_⟩
      show CovLE (1 : CtrvCov) ((2 : ℝ) • 1)
      unfold CovLE
      rw [two_smul, add_sub_cancel_right]
      exact PosSemidef.one

end Mot.Props
