import Verif.Proofs.Ukf
/-!
# Properties of prediction (C36 – C42), in exact real arithmetic
-/

namespace Mot.Props

open Mot Matrix Spec

/-! ## C36 -/

section C36
variable {S C S₁ C₁ S₂ C₂ : Type}

/-- C36: the propagator is called with state, covariance and `time - timestamp`; on success
the time is set and nothing else changes. -/
theorem C36_propagate (o : DynObj S C) (time : ℝ) (prop : Propagator S C) (s : S) (c : C)
    (h : prop (time - o.timestamp) (o.state, o.covariance) = ((s, c), .ok ())) :
    propagate time prop o = (⟨time, s, c, o.uuid, o.semanticClass⟩, .ok ()) := by
  unfold propagate
  rw [h]

/-- C36: if the propagator fails, so does the call, and the time is not changed. -/
theorem C36_propagate_failure (o : DynObj S C) (time : ℝ) (prop : Propagator S C) (s : S) (c : C)
    (e : Outcome Unit) (he : e ≠ .ok ())
    (h : prop (time - o.timestamp) (o.state, o.covariance) = ((s, c), e)) :
    propagate time prop o = (⟨o.timestamp, s, c, o.uuid, o.semanticClass⟩, e) := by
  unfold propagate
  rw [h]
  match e with
  | .ok () => exact absurd rfl he
  | .throw _ => rfl
  | .ub _ => rfl

/-- C36: identity, class and motion model never change. -/
theorem C36_identity (o : Obj2 S₁ C₁ S₂ C₂) (time : ℝ) (prop₁ : Propagator S₁ C₁)
    (prop₂ : Propagator S₂ C₂) :
    TrackOps.uuid (propagate2 time prop₁ prop₂ o).1 = TrackOps.uuid o ∧
    TrackOps.semanticClass (propagate2 time prop₁ prop₂ o).1 = TrackOps.semanticClass o ∧
    (propagate2 time prop₁ prop₂ o).1.isLeft = o.isLeft ∧
    ((propagate2 time prop₁ prop₂ o).2 = .ok () →
      TrackOps.timestamp (propagate2 time prop₁ prop₂ o).1 = time) := by
  have key : ∀ {S C : Type} (o : DynObj S C) (prop : Propagator S C),
      (propagate time prop o).1.uuid = o.uuid ∧
      (propagate time prop o).1.semanticClass = o.semanticClass ∧
      ((propagate time prop o).2 = .ok () → (propagate time prop o).1.timestamp = time) := by
    intro S C o prop
    rcases hp : prop (time - o.timestamp) (o.state, o.covariance) with ⟨⟨s, c⟩, e⟩
    by_cases he : e = .ok ()
    · subst he
      rw [C36_propagate o time prop s c hp]
      exact ⟨rfl, rfl, fun _ => rfl⟩
    · rw [C36_propagate_failure o time prop s c e he hp]
      exact ⟨rfl, rfl, fun h => absurd h he⟩
  match o with
  | .inl o => exact ⟨(key o prop₁).1, (key o prop₁).2.1, rfl, (key o prop₁).2.2⟩
  | .inr o => exact ⟨(key o prop₂).1, (key o prop₂).2.1, rfl, (key o prop₂).2.2⟩

/-- C36: on a variant the alternative held is propagated. -/
theorem C36_variant (time : ℝ) (prop₁ : Propagator S₁ C₁) (prop₂ : Propagator S₂ C₂)
    (o₁ : DynObj S₁ C₁) (o₂ : DynObj S₂ C₂) :
    propagate2 time prop₁ prop₂ (.inl o₁) =
      (.inl (propagate time prop₁ o₁).1, (propagate time prop₁ o₁).2) ∧
    propagate2 time prop₁ prop₂ (.inr o₂) =
      (.inr (propagate time prop₂ o₂).1, (propagate time prop₂ o₂).2) := ⟨rfl, rfl⟩

/-- C36: `predict_to_time` returns what `propagate_to_time` makes of the object. -/
theorem C36_predict (o p : DynObj S C) (time : ℝ) (prop : Propagator S C) :
    predict o time prop = .ok p ↔ propagate time prop o = (p, .ok ()) := by
  unfold predict
  rcases propagate time prop o with ⟨o', r⟩
  match r with
  | .ok () => simp
  | .throw _ => simp
  | .ub _ => simp

/-- C36: the same for variants. -/
theorem C36_predict_variant (o p : Obj2 S₁ C₁ S₂ C₂) (time : ℝ) (prop₁ : Propagator S₁ C₁)
    (prop₂ : Propagator S₂ C₂) :
    predict2 o time prop₁ prop₂ = .ok p ↔ propagate2 time prop₁ prop₂ o = (p, .ok ()) := by
  unfold predict2
  rcases propagate2 time prop₁ prop₂ o with ⟨o', r⟩
  match r with
  | .ok () => simp
  | .throw _ => simp
  | .ub _ => simp

/-- an object propagated backwards in time by a propagator that records the duration -/
example : propagate 3 (fun dt x => ((x.1 + dt, x.2), .ok ()))
    (⟨5, 10, (), ⟨[1]⟩, .pedestrian⟩ : DynObj ℝ Unit) =
      (⟨3, 8, (), ⟨[1]⟩, .pedestrian⟩, .ok ()) := by
  rw [C36_propagate _ _ _ (10 + (3 - 5)) () rfl]
  norm_num

/-- C36: `UkfPredictionVisitor` keeps identity and class and sets the time. -/
theorem C36_ukf_visitor {S : Type} {n : ℕ} [MotionModel S n] (chol : Chol) (α β κ time : ℝ)
    (o p : DynObj S (Matrix (Fin n) (Fin n) ℝ)) (h : ukfVisitor chol α β κ o time = .ok p) :
    p.timestamp = time ∧ p.uuid = o.uuid ∧ p.semanticClass = o.semanticClass ∧
    ∃ β' κ', ukfPredict chol o.state o.covariance (time - o.timestamp) α β' κ' =
      .ok (p.state, p.covariance) := by
  unfold ukfVisitor at h
  split at h <;> cases h
  rename_i h
  exact ⟨rfl, rfl, rfl, _, _, h⟩

end C36

/-! ## C37 -/

section
variable {S : Type} {n : ℕ} [MotionModel S n]

/-- C37: `UnscentedTransform{α, β, κ}` and `UkfPredictionVisitor(α, β, κ)` predict with
parameters α, κ, β: `beta` and `kappa` are exchanged. -/
theorem C37_swapped (chol : Chol) (α β κ time : ℝ) (o : DynObj S (Matrix (Fin n) (Fin n) ℝ)) :
    predict o time (unscentedTransform chol α β κ) = ukfVisitor chol α β κ o time ∧
    ∀ s C, ukfPredict chol o.state o.covariance (time - o.timestamp) α κ β = .ok (s, C) →
      predict o time (unscentedTransform chol α β κ) =
        .ok ⟨time, s, C, o.uuid, o.semanticClass⟩ := by
  constructor
  · unfold predict propagate unscentedTransform ukfVisitor
    simp only
    rcases ukfPredict chol o.state o.covariance (time - o.timestamp) α κ β with ⟨s, C⟩ | e | w <;> rfl
  · intro s C h
    unfold predict propagate unscentedTransform
    simp only [h]

/-- C37, the part that holds: with equal `beta` and `kappa` the requested parameters are used.

Missing: different `beta` and `kappa`, where the claim is false (`C37_false`). -/
theorem C37_honoured_partial (chol : Chol) (α β : ℝ) (dt : ℝ) (s s' : S)
    (P P' : Matrix (Fin n) (Fin n) ℝ) (h : ukfPredict chol s P dt α β β = .ok (s', P')) :
    unscentedTransform chol α β β dt (s, P) = ((s', P'), .ok ()) := by
  unfold unscentedTransform
  simp only [h]

end

/-- C37 as stated is false: `default_unscented_transform`, i.e. α = 1, β = 2, κ = 1, predicts
another heading than the filter with these parameters. -/
theorem C37_false {chol : Chol} (hchol : IsLlt chol) :
    ∃ s s' s'' : CtrvState, ∃ P P' P'' : CtrvCov, P.PosDef ∧
      ukfPredict chol s P 0 1 2 1 = .ok (s', P') ∧
      defaultUt chol 0 (s, P) = ((s'', P''), .ok ()) ∧ s'.yaw.getAngle ≠ s''.yaw.getAngle := by
  obtain ⟨s', P', h1, h2⟩ := west_predict hchol (α := 1) (β := 2) (κ := 1) (by norm_num) (by norm_num)
  obtain ⟨s'', P'', h3, h4⟩ := west_predict hchol (α := 1) (β := 1) (κ := 2) (by norm_num) (by norm_num)
  refine ⟨westState, s', s'', 1, P', P'', PosDef.one, h1, ?_, ?_⟩
  · unfold defaultUt unscentedTransform
    simp only [h3]
  · obtain ⟨c1, c2⟩ := yawCut_bounds
    norm_num at c2 h2 h4
    have hpi := Real.pi_gt_three
    rw [h2, h4, Angle.getAngle_ofRad_of_range (by constructor <;> linarith),
      Angle.getAngle_ofRad_of_range (by constructor <;> linarith)]
    intro h
    linarith

example : ∃ chol : Chol, IsLlt chol := exists_llt

/-! ## C38 -/

/-- C38: number and sums of the weights. -/
theorem C38_weights {n : ℕ} {α β lam : ℝ} (h : n + lam ≠ 0) :
    ∃ wm wc, generateWeights n α β lam = some (wm, wc) ∧ wm.length = 2 * n + 1 ∧
      wc.length = 2 * n + 1 ∧ wm.sum = 1 ∧ wc.sum = 2 - α ^ 2 + β ∧
      (∀ i : ℕ, 0 < i → wm[i]? = wc[i]?) ∧
      (∀ i : ℕ, 0 < i → i ≤ 2 * n → wm[i]? = some (1 / (2 * (n + lam)))) := by
  refine ⟨_, _, generateWeights_some h, by simp, by simp, ?_, ?_, ?_, ?_⟩
  · rw [List.sum_cons, List.sum_replicate, nsmul_eq_mul]
    push_cast
    exact weight_total h
  · rw [List.sum_cons, List.sum_replicate, nsmul_eq_mul]
    push_cast
    have := weight_total (n := n) (lam := lam) h
    linarith
  · intro i hi
    cases i with
    | zero => exact absurd hi (lt_irrefl _)
    | succ i => rfl
  · intro i hi hn
    cases i with
    | zero => exact absurd hi (lt_irrefl _)
    | succ i =>
      rw [List.getElem?_cons_succ, List.getElem?_replicate, if_pos (by omega)]

/-- C38: with λ from `generate_lambda` the weights are defined iff α ≠ 0 and κ ≠ −n. -/
theorem C38_defined_iff (n : ℕ) (α β κ : ℝ) :
    (generateWeights n α β (generateLambda n α κ)).isSome ↔ α ≠ 0 ∧ κ ≠ -n := by
  have hl := lambda_sum n α κ
  have : (n : ℝ) + generateLambda n α κ = 0 ↔ α = 0 ∨ κ = -n := by
    rw [hl, mul_eq_zero]
    constructor
    · rintro (h | h)
      · exact .inl (pow_eq_zero_iff (by norm_num) |>.1 h)
      · exact .inr (by linarith)
    · rintro (h | h)
      · exact .inl (by rw [h]; norm_num)
      · exact .inr (by rw [h]; ring)
  unfold generateWeights
  by_cases h : (n : ℝ) + generateLambda n α κ = 0
  · rw [if_pos h]
    simp only [Option.isSome_none, Bool.false_eq_true, false_iff]
    rw [this] at h
    rintro ⟨h1, h2⟩
    rcases h with h | h
    · exact h1 h
    · exact h2 h
  · rw [if_neg h]
    simp only [Option.isSome_some, true_iff]
    rw [this] at h
    exact ⟨fun h1 => h (.inl h1), fun h1 => h (.inr h1)⟩

example : (5 : ℕ) + generateLambda 5 1 2 ≠ 0 := by unfold generateLambda; norm_num

/-! ## C39 -/

section
variable {S : Type} {n : ℕ} [MotionModel S n]

/-- C39: the sigma points are `state + d j`, `state - d j`, where `d j` is √(n+λ) times
column `j` of the Cholesky factor. -/
theorem C39_points (chol : Chol) (s : S) (P : Matrix (Fin n) (Fin n) ℝ) (lam : ℝ)
    (h : 0 ≤ n + lam) : ∃ σ, sigmaPoints chol s P lam = some σ ∧ σ.length = 2 * n ∧
      ∀ (j : ℕ) (hj : j < n),
        σ[2 * j]? = some (MotionModel.add s
          (MotionModel.ofVec (√(n + lam) • (chol n P).col ⟨j, hj⟩))) ∧
        σ[2 * j + 1]? = some (MotionModel.sub s
          (MotionModel.ofVec (√(n + lam) • (chol n P).col ⟨j, hj⟩))) := by
  refine ⟨_, if_neg (not_lt.2 h), sigmaLoop_length _ _ _, ?_⟩
  intro j hj
  unfold sigmaLoop
  have hr : (List.finRange n)[j]? = some ⟨j, hj⟩ := by
    rw [List.getElem?_eq_getElem (by simpa using hj)]
    simp
  have := getElem?_flatMap_pair
    (fun j => MotionModel.add s (MotionModel.ofVec (√(n + lam) • (chol n P).col j)))
    (fun j => MotionModel.sub s (MotionModel.ofVec (√(n + lam) • (chol n P).col j)))
    (List.finRange n) j
  rw [hr] at this
  exact this

variable [MotionLaws S n]

/-- C39: the state and the points are, up to whole turns of the heading, points whose
weighted mean and covariance are the state and the covariance. -/
theorem C39_reproduces {chol : Chol} (hchol : IsLlt chol) (s : S)
    {P : Matrix (Fin n) (Fin n) ℝ} (hP : P.PosDef) {α β κ : ℝ} (hN : 0 < α ^ 2 * (n + κ)) :
    ∃ σ wm wc rows, sigmaPointsAndWeights chol s P α β κ = some (σ, wm, wc) ∧
      List.Forall₂ (fun p v => SameUpToTurns (MotionModel.toVec p) v) (s :: σ) rows ∧
      IsWeightedMeanCov rows wm wc (MotionModel.toVec s) P ∧
      computeUt rows wm wc = .ok (MotionModel.toVec s, P) := by
  have hl := lambda_sum n α κ
  have hw := weight_total (n := n) (lam := generateLambda n α κ) (by rw [hl]; exact hN.ne')
  rw [hl] at hw
  have hut := computeUt_affine hN (c₀ := generateLambda n α κ / (α ^ 2 * (n + κ)) + (1 - α ^ 2 + β))
    hw (MotionModel.toVec s) (chol n P) (1 : Matrix (Fin n) (Fin n) ℝ) 0
  simp only [one_mulVec, add_zero, List.map_id', (hchol n P hP).factor, one_mul, transpose_one,
    mul_one] at hut
  refine ⟨sigmaLoop s (chol n P) √(α ^ 2 * (n + κ)), _, _, sigmaSet (MotionModel.toVec s) (chol n P) √(α ^ 2 * (n + κ)), ?_, ?_,
    computeUt_isWeighted _ _ _ hut, hut⟩
  · unfold sigmaPointsAndWeights sigmaPoints
    simp only
    rw [generateWeights_some (by rw [hl]; exact hN.ne'), hl, if_neg (not_lt.2 hN.le)]
  · unfold sigmaSet sigmaLoop
    refine .cons (sameUpToTurns_refl _) ?_
    generalize List.finRange n = l
    induction l with
    | nil => exact .nil
    | cons j l ih =>
      rw [List.flatMap_cons, List.flatMap_cons]
      exact .cons (MotionLaws.toVec_add _ _) (.cons (MotionLaws.toVec_sub _ _) ih)

end

/-- C39 for CTRV objects. -/
theorem C39_ctrv {chol : Chol} (hchol : IsLlt chol) (s : CtrvState) {P : CtrvCov} (hP : P.PosDef)
    {α β κ : ℝ} (hN : 0 < α ^ 2 * (5 + κ)) :
    ∃ σ wm wc rows, sigmaPointsAndWeights chol s P α β κ = some (σ, wm, wc) ∧
      List.Forall₂ (fun p v => SameUpToTurns (CtrvState.toVec p) v) (s :: σ) rows ∧
      IsWeightedMeanCov rows wm wc s.toVec P := by
  obtain ⟨σ, wm, wc, rows, h1, h2, h3, -⟩ := C39_reproduces hchol s hP (β := β)
    (show 0 < α ^ 2 * ((5 : ℕ) + κ) by exact_mod_cast hN)
  exact ⟨σ, wm, wc, rows, h1, h2, h3⟩

/-- C39 for CTRA objects. -/
theorem C39_ctra {chol : Chol} (hchol : IsLlt chol) (s : CtraState) {P : CtraCov} (hP : P.PosDef)
    {α β κ : ℝ} (hN : 0 < α ^ 2 * (6 + κ)) :
    ∃ σ wm wc rows, sigmaPointsAndWeights chol s P α β κ = some (σ, wm, wc) ∧
      List.Forall₂ (fun p v => SameUpToTurns (CtraState.toVec p) v) (s :: σ) rows ∧
      IsWeightedMeanCov rows wm wc s.toVec P := by
  obtain ⟨σ, wm, wc, rows, h1, h2, h3, -⟩ := C39_reproduces hchol s hP (β := β)
    (show 0 < α ^ 2 * ((6 : ℕ) + κ) by exact_mod_cast hN)
  exact ⟨σ, wm, wc, rows, h1, h2, h3⟩

/-- the parameters with which the library calls the transform -/
example : (0 : ℝ) < 1 ^ 2 * (5 + 2) ∧ (0 : ℝ) < 1 ^ 2 * (6 + 2) := by norm_num

/-! ## C40 -/

section
variable {n m : ℕ}

/-- C40: `compute_unscented_transform` returns the weighted mean and covariance. -/
theorem C40_weighted (rows : List (Fin n → ℝ)) (wm wc : List ℝ) :
    (wm.length = rows.length ∧ wc.length = rows.length → ∃ x P,
      computeUt rows wm wc = .ok (x, P) ∧ IsWeightedMeanCov rows wm wc x P) ∧
    (¬ (wm.length = rows.length ∧ wc.length = rows.length) →
      computeUt rows wm wc = .ub .sizeMismatch) := by
  constructor
  · intro h
    rcases hp : computeUt rows wm wc with ⟨x, P⟩ | e | w
    · exact ⟨x, P, rfl, computeUt_isWeighted _ _ _ hp⟩
    · unfold computeUt at hp; rw [if_pos h] at hp; cases hp
    · unfold computeUt at hp; rw [if_pos h] at hp; cases hp
  · intro h
    exact if_neg h

/-- C40: the unscented transform is exact for affine maps. -/
theorem C40_affine {chol : Chol} (hchol : IsLlt chol) {P : Matrix (Fin n) (Fin n) ℝ}
    (hP : P.PosDef) (x : Fin n → ℝ) {α β κ : ℝ} (hN : 0 < n + generateLambda n α κ)
    (M : Matrix (Fin m) (Fin n) ℝ) (b : Fin m → ℝ) :
    ∃ wm wc, generateWeights n α β (generateLambda n α κ) = some (wm, wc) ∧
      computeUt ((sigmaSet x (chol n P) √(n + generateLambda n α κ)).map fun p => M *ᵥ p + b) wm wc
        = .ok (M *ᵥ x + b, M * P * Mᵀ) := by
  refine ⟨_, _, generateWeights_some hN.ne', ?_⟩
  have := computeUt_affine hN
    (c₀ := generateLambda n α κ / (n + generateLambda n α κ) + (1 - α ^ 2 + β))
    (weight_total hN.ne') x (chol n P) M b
  rw [(hchol n P hP).factor] at this
  exact this

end

example : (0 : ℝ) < (5 : ℕ) + generateLambda 5 1 2 := by unfold generateLambda; norm_num

/-- C40: a prediction moves the state and every sigma point by the motion model, shifts
headings above 3.14159265359 down by 2·3.14159265359, and returns the weighted mean and the
weighted covariance of the moved points. -/
theorem C40_predict {S : Type} {n : ℕ} [MotionModel S n] (chol : Chol) (s : S)
    (P : Matrix (Fin n) (Fin n) ℝ) (dt α β κ : ℝ) (hN : 0 < α ^ 2 * (n + κ)) :
    ∃ σ wm wc rows x P', sigmaPointsAndWeights chol s P α β κ = some (σ, wm, wc) ∧
      ukfPredict chol s P dt α β κ = .ok (MotionModel.ofVec x, P') ∧
      List.Forall₂ (fun (p : S) v => ∀ i : Fin n, v i =
        if i.1 = 3 ∧ MotionModel.toVec (MotionModel.next p dt) i > 3.14159265359
        then MotionModel.toVec (MotionModel.next p dt) i - 2 * 3.14159265359
        else MotionModel.toVec (MotionModel.next p dt) i) (s :: σ) rows ∧
      IsWeightedMeanCov rows wm wc x P' := by
  obtain ⟨r, hr⟩ := (show (∃ r, ukfPredict chol s P dt α β κ = .ok r) by
    obtain ⟨x, C, h, -⟩ := ukfPredict_mean chol s P dt α β κ hN
    exact ⟨_, h⟩)
  have hl := lambda_sum n α κ
  have hsp : sigmaPointsAndWeights chol s P α β κ = some (sigmaLoop s (chol n P) √(α ^ 2 * (n + κ)),
      generateLambda n α κ / (α ^ 2 * (n + κ)) ::
          List.replicate (2 * n) (1 / (2 * (α ^ 2 * (n + κ)))),
      (generateLambda n α κ / (α ^ 2 * (n + κ)) + (1 - α ^ 2 + β)) ::
          List.replicate (2 * n) (1 / (2 * (α ^ 2 * (n + κ))))) := by
    unfold sigmaPointsAndWeights sigmaPoints
    simp only
    rw [generateWeights_some (by rw [hl]; exact hN.ne'), hl, if_neg (not_lt.2 hN.le)]
  have hr' := hr
  rw [ukfPredict_eq chol s P dt α β κ hN] at hr'
  split at hr' <;> try cases hr'
  rename_i x C hut
  refine ⟨_, _, _, _, x, C, hsp, hr, ?_, computeUt_isWeighted _ _ _ hut⟩
  unfold predictedRows
  generalize (s :: sigmaLoop s (chol n P) √(α ^ 2 * (n + κ))) = l
  induction l with
  | nil => exact .nil
  | cons p l ih =>
    refine .cons (fun i => ?_) ih
    have hc : yawCut = 3.14159265359 := by unfold yawCut; norm_num
    unfold rotateYaw
    rw [hc]

/-! ## C41 -/

section
variable {S : Type} {n : ℕ} [MotionModel S n] [MotionLaws S n]

/-- C41, the part that holds: if the heading is at least `ρ` away from 0 and 3.14159265359
and between them, where `ρ` is √(α²(n+β)) standard deviations of the heading, predicting an
object to its own time with `UnscentedTransform{α, β, κ}` changes nothing.

Missing: headings near π, where the claim is false (`C41_false`). -/
theorem C41_noop_partial {chol : Chol} (hchol : IsLlt chol)
    (o : DynObj S (Matrix (Fin n) (Fin n) ℝ)) (hs : MotionLaws.Valid o.state)
    (hP : o.covariance.PosDef) {α β κ : ℝ} (hN : 0 < α ^ 2 * (n + β))
    (hlow : ∀ k : Fin n, k.1 = 3 →
      √(α ^ 2 * (n + β) * o.covariance k k) ≤ MotionModel.toVec o.state k ∧
      MotionModel.toVec o.state k + √(α ^ 2 * (n + β) * o.covariance k k) ≤ yawCut) :
    predict o o.timestamp (unscentedTransform chol α β κ) = .ok o := by
  have h := ukfPredict_zero hchol hs hP (β := κ) hN (b := 0) fun v z h1 h2 h3 => by
    rw [add_zero]
    refine row_low h1 h2 fun k hk => ?_
    obtain ⟨l1, l2⟩ := hlow k hk
    have := abs_le.1 (h3 k hk)
    constructor <;> linarith [this.1, this.2]
  rw [add_zero, MotionLaws.ofVec_toVec _ hs] at h
  rw [(C37_swapped chol α β κ o.timestamp o).2 o.state o.covariance (by rw [sub_self]; exact h)]

/-- C41, the part that holds on the other side: the covariance and all variables but the
heading are unchanged, and the heading is off by less than 2·10⁻¹². -/
theorem C41_noop_high_partial {chol : Chol} (hchol : IsLlt chol)
    (o : DynObj S (Matrix (Fin n) (Fin n) ℝ)) (hs : MotionLaws.Valid o.state)
    (hP : o.covariance.PosDef) {α β κ : ℝ} (hN : 0 < α ^ 2 * (n + β))
    (hhigh : ∀ k : Fin n, k.1 = 3 →
      yawCut + √(α ^ 2 * (n + β) * o.covariance k k) < MotionModel.toVec o.state k ∧
      MotionModel.toVec o.state k + √(α ^ 2 * (n + β) * o.covariance k k) < 2 * Real.pi) :
    ∃ s, predict o o.timestamp (unscentedTransform chol α β κ) = .ok { o with state := s } ∧
      (∀ k : Fin n, k.1 ≠ 3 → MotionModel.toVec s k = MotionModel.toVec o.state k) ∧
      ∀ k : Fin n, k.1 = 3 → |MotionModel.toVec s k - MotionModel.toVec o.state k| < 2 / 10 ^ 12 := by
  have h := ukfPredict_zero hchol hs hP (β := κ) hN (b := headingVec n (-(2 * yawCut)))
    fun v z h1 h2 h3 => by
      refine row_high h1 h2 fun k hk => ?_
      obtain ⟨l1, l2⟩ := hhigh k hk
      have := abs_le.1 (h3 k hk)
      constructor <;> linarith [this.1, this.2]
  refine ⟨_, (C37_swapped chol α β κ o.timestamp o).2 _ _ (by rw [sub_self]; exact h), ?_, ?_⟩
  · intro k hk
    have := MotionLaws.toVec_ofVec (S := S) (MotionModel.toVec o.state + headingVec n (-(2 * yawCut))) k
    rw [if_neg hk] at this
    rw [this, Pi.add_apply, headingVec, if_neg hk, add_zero]
  · intro k hk
    obtain ⟨c1, c2⟩ := yawCut_bounds
    have hpi := Real.pi_gt_three
    have := MotionLaws.toVec_ofVec (S := S) (MotionModel.toVec o.state + headingVec n (-(2 * yawCut))) k
    rw [if_pos hk] at this
    have hr := MotionLaws.range (S := S) (MotionModel.ofVec
      (MotionModel.toVec o.state + headingVec n (-(2 * yawCut)))) k hk
    have h3 : SameDir (MotionModel.toVec (MotionModel.ofVec
        (MotionModel.toVec o.state + headingVec n (-(2 * yawCut))) : S) k)
        (MotionModel.toVec o.state k - 2 * (yawCut - Real.pi)) := by
      refine this.trans ⟨-1, ?_⟩
      rw [Pi.add_apply, headingVec, if_pos hk]
      push_cast
      ring
    have hst := Real.sqrt_nonneg (α ^ 2 * (n + β) * o.covariance k k)
    obtain ⟨l1, l2⟩ := hhigh k hk
    rw [h3.eq_of_range hr (by norm_num at c2; constructor <;> linarith), sub_sub_cancel_left,
      abs_neg, abs_of_pos (by linarith)]
    linarith

end

/-- C41 for CTRV objects and `default_unscented_transform`: √7 standard deviations. -/
theorem C41_ctrv_partial {chol : Chol} (hchol : IsLlt chol) (o : DynObj CtrvState CtrvCov)
    (hs : o.state.yaw.Valid) (hP : o.covariance.PosDef)
    (h0 : √(7 * o.covariance 3 3) ≤ o.state.yaw.getAngle)
    (h1 : o.state.yaw.getAngle + √(7 * o.covariance 3 3) ≤ yawCut) :
    predict o o.timestamp (defaultUt chol) = .ok o := by
  refine C41_noop_partial hchol o hs hP (α := 1) (β := 2) (κ := 1) (by norm_num) fun k hk => ?_
  rw [show k = 3 from Fin.ext hk, show (1 : ℝ) ^ 2 * ((5 : ℕ) + 2) = 7 by norm_num]
  exact ⟨h0, h1⟩

/-- C41 for CTRA objects and `default_unscented_transform`: √8 standard deviations. -/
theorem C41_ctra_partial {chol : Chol} (hchol : IsLlt chol) (o : DynObj CtraState CtraCov)
    (hs : o.state.yaw.Valid) (hP : o.covariance.PosDef)
    (h0 : √(8 * o.covariance 3 3) ≤ o.state.yaw.getAngle)
    (h1 : o.state.yaw.getAngle + √(8 * o.covariance 3 3) ≤ yawCut) :
    predict o o.timestamp (defaultUt chol) = .ok o := by
  refine C41_noop_partial hchol o hs hP (α := 1) (β := 2) (κ := 1) (by norm_num) fun k hk => ?_
  rw [show k = 3 from Fin.ext hk, show (1 : ℝ) ^ 2 * ((6 : ℕ) + 2) = 8 by norm_num]
  exact ⟨h0, h1⟩

/-- C41 as stated is false: a standing object heading π with unit covariance, predicted to
its own time with `default_unscented_transform`, turns by more than 2/5. -/
theorem C41_false {chol : Chol} (hchol : IsLlt chol) :
    ∃ o p : DynObj CtrvState CtrvCov, o.covariance.PosDef ∧ o.state.yaw.Valid ∧
      predict o o.timestamp (defaultUt chol) = .ok p ∧
      p.state.yaw.getAngle < o.state.yaw.getAngle - 2 / 5 := by
  obtain ⟨s, C, h3, h4⟩ := west_predict hchol (α := 1) (β := 1) (κ := 2) (by norm_num) (by norm_num)
  refine ⟨⟨0, westState, 1, ⟨[1]⟩, .unknown⟩, ⟨0, s, C, ⟨[1]⟩, .unknown⟩, PosDef.one,
    Angle.valid_ofRad _, ?_, ?_⟩
  · refine (C37_swapped chol 1 2 1 _ _).2 s C ?_
    rw [sub_self]; exact h3
  · obtain ⟨c1, c2⟩ := yawCut_bounds
    have hpi := Real.pi_gt_three
    norm_num at c2 h4
    show s.yaw.getAngle < (Angle.ofRad Real.pi).getAngle - 2 / 5
    rw [h4, west_yaw, Angle.getAngle_ofRad_of_range (by constructor <;> linarith)]
    linarith

/-- an object to which `C41_noop_partial` applies: heading 1, unit-free small covariance -/
example : ∃ o : DynObj CtrvState CtrvCov, o.covariance.PosDef ∧ MotionLaws.Valid o.state ∧
    ∀ k : Fin 5, k.1 = 3 →
      √(1 ^ 2 * ((5 : ℕ) + 2) * o.covariance k k) ≤ MotionModel.toVec o.state k ∧
      MotionModel.toVec o.state k + √(1 ^ 2 * ((5 : ℕ) + 2) * o.covariance k k) ≤ yawCut := by
  have hpi := Real.pi_gt_three
  refine ⟨⟨0, ⟨0, 0, 0, Angle.ofRad 1, 0⟩, (1 / 7 : ℝ) • 1, ⟨[1]⟩, .unknown⟩,
    PosDef.one.smul (by norm_num), Angle.valid_ofRad _, ?_⟩
  intro k hk
  rw [show k = 3 from Fin.ext hk]
  have h1 : (MotionModel.toVec (⟨0, 0, 0, Angle.ofRad 1, 0⟩ : CtrvState) : Fin 5 → ℝ) 3 = 1 :=
    Angle.getAngle_ofRad_of_range (by constructor <;> linarith)
  have h2 : ((1 / 7 : ℝ) • (1 : CtrvCov)) 3 3 = 1 / 7 := by
    rw [Matrix.smul_apply, one_apply_eq, smul_eq_mul, mul_one]
  simp only [h1, h2]
  rw [show (1 : ℝ) ^ 2 * ((5 : ℕ) + 2) * (1 / 7) = 1 by norm_num, Real.sqrt_one]
  unfold yawCut
  norm_num

/-! ## C42 -/

section
variable {S : Type} {n : ℕ} [MotionModel S n]

/-- C42: the filter's prediction exists exactly if α²(n+κ) is positive. -/
theorem C42_defined_iff (chol : Chol) (s : S) (P : Matrix (Fin n) (Fin n) ℝ) (dt α β κ : ℝ) :
    (∃ r, ukfPredict chol s P dt α β κ = .ok r) ↔ 0 < α ^ 2 * (n + κ) := by
  constructor
  · rintro ⟨r, h⟩
    by_contra hN
    rw [ukfPredict_notReal chol s P dt α β κ (not_lt.1 hN)] at h
    cases h
  · intro hN
    obtain ⟨x, C, h, -⟩ := ukfPredict_mean chol s P dt α β κ hN
    exact ⟨_, h⟩

/-- C42: the predicted covariance is symmetric, and positive semidefinite if the weight of
the centre is not negative (the others are positive). -/
theorem C42_valid_covariance (chol : Chol) (s s' : S) (P P' : Matrix (Fin n) (Fin n) ℝ)
    (dt α β κ : ℝ) (h : ukfPredict chol s P dt α β κ = .ok (s', P')) :
    P'ᵀ = P' ∧
    (0 ≤ generateLambda n α κ / (n + generateLambda n α κ) + (1 - α ^ 2 + β) → P'.PosSemidef) := by
  have hN : 0 < α ^ 2 * (n + κ) := (C42_defined_iff chol s P dt α β κ).1 ⟨_, h⟩
  rw [ukfPredict_eq chol s P dt α β κ hN] at h
  unfold computeUt at h
  rw [if_pos (by simp [predictedRows, sigmaLoop_length])] at h
  simp only [Outcome.ok.injEq, Prod.mk.injEq] at h
  obtain ⟨-, rfl⟩ := h
  refine ⟨zip_cov_symm _ _, fun hw => zip_cov_posSemidef _ ?_ _⟩
  rw [lambda_sum] at hw
  intro w hwm
  rcases List.mem_cons.1 hwm with rfl | hwm
  · exact hw
  · rw [List.eq_of_mem_replicate hwm]
    positivity

/-- C42: with `default_unscented_transform` prediction always succeeds with a symmetric
positive semidefinite covariance. -/
theorem C42_default (chol : Chol) (o : DynObj S (Matrix (Fin n) (Fin n) ℝ)) (time : ℝ) :
    ∃ p, predict o time (defaultUt chol) = .ok p ∧ p.covariance.PosSemidef ∧
      p.covarianceᵀ = p.covariance := by
  have hN : (0 : ℝ) < 1 ^ 2 * (n + 2) := by positivity
  obtain ⟨⟨s, C⟩, h⟩ := (C42_defined_iff chol o.state o.covariance (time - o.timestamp) 1 1 2).2 hN
  refine ⟨_, (C37_swapped chol 1 2 1 time o).2 s C h, ?_⟩
  obtain ⟨h1, h2⟩ := C42_valid_covariance chol _ _ _ _ _ _ _ _ h
  refine ⟨h2 ?_, h1⟩
  have hl : generateLambda n 1 2 = 2 := by unfold generateLambda; ring
  rw [hl]
  have : (0 : ℝ) < n + 2 := by positivity
  have := div_pos (show (0 : ℝ) < 2 by norm_num) this
  linarith

end

end Mot.Props
