import Verif.Proofs.FloatCovariance
import Verif.Props.FloatPipeline
import Verif.Props.FloatLlt
/-!
# C123: covariances that are not numbers
-/

namespace Mot.Props

open Mot Spec Manager

variable {m : Libm}

/-! ## C123 -/

/-- C123: every object has a prediction, whatever its numbers. -/
theorem C123_defined (o : FObj m) : ∃ o', PredictsLltF o o' := by
  cases o with
  | inl o =>
    obtain ⟨L, r, hL⟩ := C122_defined o.covariance
    obtain ⟨s, P, h⟩ := C94_exists (.fin 1) (.fin 2) (.fin 0) (.fin 1) o.state L
    exact ⟨.inl { o with state := s, covariance := P }, .ctrv rfl rfl hL h⟩
  | inr o =>
    obtain ⟨L, r, hL⟩ := C122_defined o.covariance
    obtain ⟨s, P, h⟩ := C94_exists (.fin 1) (.fin 2) (.fin 0) (.fin 1) o.state L
    exact ⟨.inr { o with state := s, covariance := P }, .ctra rfl rfl hL h⟩

/-- C123: a NaN in or below the diagonal of the covariance, and the position after any prediction is not a pair of numbers;
the predicted covariance has a NaN again. -/
theorem C123_nan (hm : NanMath m) {o o' : FObj m} (h : PredictsLltF o o') (hn : CovarianceNan o) :
    FP.nan ∈ position o' ∧ CovarianceNan o' := h.nan hm hn

/-- C123: so no number of predictions brings the position back. -/
theorem C123_forever (hm : NanMath m) {o o' : FObj m} (h : Relation.TransGen PredictsLltF o o') (hn : CovarianceNan o) :
    FP.nan ∈ position o' := by
  suffices FP.nan ∈ position o' ∧ CovarianceNan o' from this.1
  induction h with
  | single h => exact C123_nan hm h hn
  | tail _ h ih => exact C123_nan hm h ih.2

/-- C123: an infinite variance makes a number of the predicted state NaN; that of x, y, heading or turn rate the position. -/
theorem C123_infinite (hm : NanMath m) {o o' : FObj m} (h : PredictsLltF o o') {k : ℕ} (hk : VarianceInfinite k o) :
    FP.nan ∈ numbers o' ∧ (k ≠ 2 → k ≠ 5 → FP.nan ∈ position o') := h.inf hm hk

/-- C123: after two predictions the position is lost in any case. -/
theorem C123_infinite_twice (hm : NanMath m) {o o₁ o₂ : FObj m} (h₁ : PredictsLltF o o₁) (h₂ : PredictsLltF o₁ o₂) {k : ℕ}
    (hk : VarianceInfinite k o) : FP.nan ∈ position o₂ := C101_predict h₂.predicts (h₁.inf hm hk).1

/-- C123: a NaN above the diagonal goes unnoticed: CTRV objects that differ only there have the same predictions. -/
theorem C123_upper_ctrv {o o' : DynObj (CtrvStateF m) (Matrix (Fin 5) (Fin 5) FP)} {P : Matrix (Fin 5) (Fin 5) FP}
    (hP : ∀ i j, j ≤ i → o.covariance i j = P i j) :
    PredictsLltF (.inl o) (.inl o') ↔ PredictsLltF (.inl { o with covariance := P }) (.inl o') := by
  constructor
  · intro h
    cases h with
    | ctrv hu hc hL h => exact .ctrv hu hc ((C122_lower_only hP).1 hL) h
  · intro h
    cases h with
    | ctrv hu hc hL h => exact .ctrv hu hc ((C122_lower_only hP).2 hL) h

/-- C123: likewise for CTRA objects. -/
theorem C123_upper_ctra {o o' : DynObj (CtraStateF m) (Matrix (Fin 6) (Fin 6) FP)} {P : Matrix (Fin 6) (Fin 6) FP}
    (hP : ∀ i j, j ≤ i → o.covariance i j = P i j) :
    PredictsLltF (.inr o) (.inr o') ↔ PredictsLltF (.inr { o with covariance := P }) (.inr o') := by
  constructor
  · intro h
    cases h with
    | ctra hu hc hL h => exact .ctra hu hc ((C122_lower_only hP).1 hL) h
  · intro h
    cases h with
    | ctra hu hc hL h => exact .ctra hu hc ((C122_lower_only hP).2 hL) h

/-- C123: a period with a track and a detection of the same kind, one of them with a NaN in its covariance or an infinite
variance of x, y, heading or turn rate, has undefined behaviour if all predictions succeed; nothing has been stored then. -/
theorem C123_period_ub (hlib : NanMath m) {n : ℕ} {mgr : Manager (FObj m)} (hr : ReachableIn _ _ n mgr)
    (hn : n + 2 < 2 ^ 64) (solve : Solver) {metric : FObj m → FObj m → Option FP}
    (hm : NanScores metric) {gate : FP → Bool} (hg : gate .nan = false)
    (visitor : FObj m → FObj m → Outcome (FObj m)) (make : FObj m → FObj m)
    {align : FObj m → Outcome (FObj m)} (hal : ∀ o o', align o = .ok o' → PredictsLltF o o')
    {ds : List (FObj m)} (hds : (ds.map TrackOps.uuid).Nodup)
    (hok : ∀ o ∈ ds ++ mgr.getAllTracks, ∃ o', align o = .ok o')
    {t d : FObj m} (ht : t ∈ mgr.getAllTracks) (hd : d ∈ ds) (hk : t.isLeft = d.isLeft)
    (hnan : ∃ o, (o = t ∨ o = d) ∧ (CovarianceNan o ∨ ∃ k, k ≠ 2 ∧ k ≠ 5 ∧ VarianceInfinite k o)) :
    (period solve metric gate visitor make align ds mgr).2.IsUb ∧
    (period solve metric gate visitor make align ds mgr).1 = mgr := by
  obtain ⟨T, h⟩ := reachable_rel hr hn
  have key : ∀ {o : FObj m}, (CovarianceNan o ∨ ∃ k, k ≠ 2 ∧ k ≠ 5 ∧ VarianceInfinite k o) →
      ∀ o', align o = .ok o' → FP.nan ∈ position o' := by
    rintro o (h | ⟨k, h2, h5, h⟩) o' ho
    · exact ((hal _ _ ho).nan hlib h).1
    · exact ((hal _ _ ho).inf hlib h).2 h2 h5
  refine nan_period h.nodup solve hm hg visitor make (fun o o' h => (hal o o' h).predicts.same) hds hok ht hd hk ?_
  obtain ⟨o, rfl | rfl, ho⟩ := hnan
  · exact .inl (key ho)
  · exact .inr (key ho)

/-- NaN for what is not a number -/
def FP.known : FP → FP
  | .fin q => .fin q
  | _ => .nan

/-- headings are kept as they are; NaN for what is not a number -/
def nanLibm : Libm := ⟨FP, FP.known, fun a => match a with | .fin _ => .fin 1 | _ => .nan, FP.known, id⟩

theorem nanLibm_nan : NanMath nanLibm := ⟨rfl, rfl, fun _ => rfl, fun _ => rfl, rfl, fun _ => rfl⟩

/-- a CTRV object at rest; the variance of its speed is given -/
def vagueObj (u : Fin 256) (x : ℚ) (c : FP) : FObj nanLibm :=
  .inl ⟨0, ⟨.fin x, .fin 20, .fin 0, (.fin 1 : FP), .fin 0⟩, diagonalF ![.fin 1, .fin 1, c, .fin 1, .fin 1], ⟨[u]⟩, .unknown⟩

/-- some prediction -/
noncomputable def predictSome (o : FObj nanLibm) : Outcome (FObj nanLibm) := .ok (C123_defined o).choose

/-- the variance of the speed of an object at rest is NaN: the predicted position is lost, although its own numbers, with which
an object at rest does not move, are all finite -/
example {o' : FObj nanLibm} (h : PredictsLltF (vagueObj 1 10 .nan) o') :
    FP.nan ∉ numbers (vagueObj 1 10 .nan) ∧ FP.nan ∈ position o' :=
  ⟨by simp [vagueObj, numbers], (C123_nan nanLibm_nan h ⟨2, 2, le_rfl, rfl⟩).1⟩

/-- an infinite one: the speed is lost at once, the position with the next prediction -/
example {o₁ o₂ : FObj nanLibm} (h₁ : PredictsLltF (vagueObj 1 10 (.inf false)) o₁) (h₂ : PredictsLltF o₁ o₂) :
    FP.nan ∈ numbers o₁ ∧ FP.nan ∈ position o₂ :=
  have hk : VarianceInfinite 2 (vagueObj 1 10 (.inf false)) := ⟨2, rfl, rfl⟩
  ⟨(C123_infinite nanLibm_nan h₁ hk).1, C123_infinite_twice nanLibm_nan h₁ h₂ hk⟩

/-- one variance of a detection is NaN: undefined, whatever the solver and the fusion -/
example (solve : Solver) (visitor : FObj nanLibm → FObj nanLibm → Outcome (FObj nanLibm))
    (make : FObj nanLibm → FObj nanLibm) :
    (period solve (euclidMetric CtrvStateF.pose CtraStateF.pose) (fun s => FP.gt s (.fin 5)) visitor make
      predictSome [vagueObj 2 11 .nan] (addTentativeTrack (vagueObj 1 10 (.fin 1)) (Manager.new 3 0)).1).2.IsUb := by
  have hr := reachable_step (⟨3, 0, [], [], .nil (Reordered.refl _), rfl⟩ :
      ReachableIn _ _ 0 (Manager.new 3 0 : Manager (FObj nanLibm))) (.add (vagueObj 1 10 (.fin 1)))
  have hal : ∀ o o' : FObj nanLibm, predictSome o = .ok o' → PredictsLltF o o' := by
    intro o o' h
    cases h
    exact (C123_defined o).choose_spec
  have hD : ([vagueObj 2 11 .nan].map TrackOps.uuid).Nodup := by simp
  exact (C123_period_ub nanLibm_nan hr (by simp [Op.updates]) solve C101_euclid
    (gate := fun s => FP.gt s (.fin 5)) (C101_gate _) visitor make hal hD
    (fun o _ => ⟨_, rfl⟩) (show vagueObj 1 10 (.fin 1) ∈ [vagueObj 1 10 (.fin 1)] from List.mem_singleton.2 rfl)
    (List.mem_singleton.2 rfl) rfl ⟨_, .inr rfl, .inl ⟨2, 2, le_rfl, rfl⟩⟩).1

end Mot.Props
