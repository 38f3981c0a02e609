import Verif.Proofs.ConvergeHeading
import Verif.Props.Information
/-!
# Repeated fusing (C106)

In exact real arithmetic.
-/

namespace Mot.Props

open Mot Spec Matrix Filter Topology

section
variable {S : Type} {n : ℕ} [NeZero n] [MotionModel S n]

/-- C106 (a): any number of detections can be fused to a track one after another if all covariances
are positive definite, and the results are determined. -/
theorem C106_exists (t : DynObj S (Matrix (Fin n) (Fin n) ℝ)) (d : ℕ → DynObj S (Matrix (Fin n) (Fin n) ℝ))
    (ht : t.covariance.PosDef) (hd : ∀ k, (d k).covariance.PosDef) :
    ∃ f, FusedRun t d f ∧ (∀ g, FusedRun t d g → g = f) ∧ ∀ k, (f k).covariance.PosDef := by
  classical
  let step : ℕ → DynObj S (Matrix (Fin n) (Fin n) ℝ) → DynObj S (Matrix (Fin n) (Fin n) ℝ) := fun k o =>
    match fusePair o (d k) with
    | .ok g => g
    | .throw _ => o
    | .ub _ => o
  let f : ℕ → DynObj S (Matrix (Fin n) (Fin n) ℝ) := fun k => Nat.rec t step k
  have hf : ∀ k, f (k + 1) = step k (f k) := fun _ => rfl
  have key : ∀ k, (f k).covariance.PosDef ∧ fusePair (f k) (d k) = .ok (f (k + 1)) := by
    intro k
    have hstep : ∀ k, (f k).covariance.PosDef → fusePair (f k) (d k) = .ok (f (k + 1)) ∧
        (f (k + 1)).covariance.PosDef := by
      intro k hk
      obtain ⟨g, w, hg, -, -, -, hp, -⟩ := C32_valid_covariance (f k) (d k) hk (hd k)
      have : f (k + 1) = g := by
        rw [hf]
        show (match fusePair (f k) (d k) with
          | .ok g => g
          | .throw _ => f k
          | .ub _ => f k) = g
        rw [hg]
      rw [this]
      exact ⟨hg, hp⟩
    induction k with
    | zero => exact ⟨ht, (hstep 0 ht).1⟩
    | succ k ih =>
      have h1 := (hstep k ih.1).2
      exact ⟨h1, (hstep (k + 1) h1).1⟩
  refine ⟨f, ⟨rfl, fun k => (key k).2⟩, fun g hg => ?_, fun k => (key k).1⟩
  funext k
  induction k with
  | zero => exact hg.start
  | succ k ih =>
    have h1 := hg.step k
    rw [ih, (key k).2] at h1
    injection h1 with h1
    exact h1.symm

private theorem run_cov {t : DynObj S (Matrix (Fin n) (Fin n) ℝ)} {d f : ℕ → DynObj S (Matrix (Fin n) (Fin n) ℝ)}
    {R : Matrix (Fin n) (Fin n) ℝ} (hR : R.PosDef) (hd : ∀ k, (d k).covariance = R) (hf : FusedRun t d f) (k : ℕ)
    (hk : (f k).covariance.PosDef) : (f (k + 1)).covariance = (fuseInfo (f k).covariance R)⁻¹ := by
  have h1 := hf.step k
  rw [fusePair_posDef _ _ hk (by rw [hd k]; exact hR), hd k] at h1
  injection h1 with h1
  rw [← h1]

/-- C106 (b): fusing detections of the same covariance, whatever their states and times, brings the
inverse covariance of the track nearer to that of the detections by a factor below 1 each time, on
the segment between the two. -/
theorem C106_rate {t : DynObj S (Matrix (Fin n) (Fin n) ℝ)} {d f : ℕ → DynObj S (Matrix (Fin n) (Fin n) ℝ)}
    {R : Matrix (Fin n) (Fin n) ℝ} (ht : t.covariance.PosDef) (hR : R.PosDef) (hd : ∀ k, (d k).covariance = R)
    (hf : FusedRun t d f) : ∃ r, r = 1 - (R⁻¹).det / (2 * (t.covariance⁻¹ + R⁻¹ + R⁻¹).det) ∧ 0 < r ∧ r < 1 ∧
      ∀ k, ∃ u, 0 < u ∧ u ≤ r ^ k ∧ (f k).covariance⁻¹ - R⁻¹ = u • (t.covariance⁻¹ - R⁻¹) := by
  obtain ⟨r0, r1⟩ := fuseRate_bounds ht.inv hR.inv
  refine ⟨fuseRate t.covariance⁻¹ R⁻¹, rfl, r0, r1, fun k => ?_⟩
  have h0 : (f 0).covariance.PosDef := by rw [hf.start]; exact ht
  obtain ⟨u, -, -, h⟩ := info_run (P := fun k => (f k).covariance) h0 hR (fun k hk => run_cov hR hd hf k hk)
  obtain ⟨-, h2, h3, h4⟩ := h k
  simp only [hf.start] at h3 h4
  refine ⟨u k, h2, h3, ?_⟩
  rw [h4]
  abel

/-- C106 (b): the covariance of the track converges to that of the detections: however many
detections are fused, the track does not become more certain than one detection. -/
theorem C106_covariance {t : DynObj S (Matrix (Fin n) (Fin n) ℝ)} {d f : ℕ → DynObj S (Matrix (Fin n) (Fin n) ℝ)}
    {R : Matrix (Fin n) (Fin n) ℝ} (ht : t.covariance.PosDef) (hR : R.PosDef) (hd : ∀ k, (d k).covariance = R)
    (hf : FusedRun t d f) (i j : Fin n) : Tendsto (fun k => (f k).covariance i j) atTop (𝓝 (R i j)) := by
  have h0 : (f 0).covariance.PosDef := by rw [hf.start]; exact ht
  obtain ⟨r0, r1⟩ := fuseRate_bounds h0.inv hR.inv
  obtain ⟨u, -, -, h⟩ := info_run (P := fun k => (f k).covariance) h0 hR (fun k hk => run_cov hR hd hf k hk)
  have hu := tendsto_of_rate r0.le r1 (fun k => ⟨(h k).2.1, (h k).2.2.1⟩)
  refine (tendsto_inv (D := (f 0).covariance⁻¹ - R⁻¹) hR hu i j).congr fun k => ?_
  rw [← (h k).2.2.2, nonsing_inv_nonsing_inv _ (PosDef.isUnit_det (h k).1)]

/-- C106 (b): the weight of the track converges to one half. -/
theorem C106_weight {t : DynObj S (Matrix (Fin n) (Fin n) ℝ)} {d f : ℕ → DynObj S (Matrix (Fin n) (Fin n) ℝ)}
    {R : Matrix (Fin n) (Fin n) ℝ} (ht : t.covariance.PosDef) (hR : R.PosDef) (hd : ∀ k, (d k).covariance = R)
    (hf : FusedRun t d f) : ∃ w : ℕ → ℝ, (∀ k, generateWeight (f k).covariance⁻¹ (d k).covariance⁻¹ = some (w k)) ∧
      Tendsto w atTop (𝓝 (1 / 2)) := by
  have h0 : (f 0).covariance.PosDef := by rw [hf.start]; exact ht
  obtain ⟨r0, r1⟩ := fuseRate_bounds h0.inv hR.inv
  obtain ⟨u, -, -, h⟩ := info_run (P := fun k => (f k).covariance) h0 hR (fun k hk => run_cov hR hd hf k hk)
  have hu := tendsto_of_rate r0.le r1 (fun k => ⟨(h k).2.1, (h k).2.2.1⟩)
  refine ⟨fun k => fuseWeight (f k).covariance R, fun k => ?_, tendsto_weight hR hu fun k => (h k).2.2.2⟩
  rw [hd k]
  exact (fuseWeight_spec (h k).1 hR).1

/-- C106 (c): a track that is less certain than the detections never becomes more certain than they
are, and one that is more certain never becomes less certain than they are; in the first case the
covariance decreases all the time, in the second it increases. -/
theorem C106_between {t : DynObj S (Matrix (Fin n) (Fin n) ℝ)} {d f : ℕ → DynObj S (Matrix (Fin n) (Fin n) ℝ)}
    {R : Matrix (Fin n) (Fin n) ℝ} (ht : t.covariance.PosDef) (hR : R.PosDef) (hd : ∀ k, (d k).covariance = R)
    (hf : FusedRun t d f) :
    (CovLE R t.covariance → ∀ k, CovLE R (f k).covariance ∧ CovLE (f (k + 1)).covariance (f k).covariance) ∧
      (CovLE t.covariance R → ∀ k, CovLE (f k).covariance R ∧ CovLE (f k).covariance (f (k + 1)).covariance) := by
  have h0 : (f 0).covariance.PosDef := by rw [hf.start]; exact ht
  obtain ⟨u, -, -, h⟩ := info_run (P := fun k => (f k).covariance) h0 hR (fun k hk => run_cov hR hd hf k hk)
  constructor
  · intro hle k
    have step : ∀ k, CovLE R (f k).covariance → CovLE R (f (k + 1)).covariance ∧
        CovLE (f (k + 1)).covariance (f k).covariance := by
      intro k hk
      have hdk : (d k).covariance.PosDef := by rw [hd k]; exact hR
      obtain ⟨f', g, -, hg, -, -, h5, h6⟩ := C82_dominated (d k) (f k) hdk (h k).1 (by rw [hd k]; exact hk)
      have := hf.step k
      rw [hg] at this
      injection this with this
      rw [this, hd k] at h5
      rw [this] at h6
      exact ⟨h5, h6⟩
    have all : ∀ k, CovLE R (f k).covariance := by
      intro k
      induction k with
      | zero => rw [hf.start]; exact hle
      | succ k ih => exact (step k ih).1
    exact ⟨all k, (step k (all k)).2⟩
  · intro hle k
    have step : ∀ k, CovLE (f k).covariance R → CovLE (f (k + 1)).covariance R ∧
        CovLE (f k).covariance (f (k + 1)).covariance := by
      intro k hk
      have hdk : (d k).covariance.PosDef := by rw [hd k]; exact hR
      obtain ⟨f', g, hf', -, h3, h4, -, -⟩ := C82_dominated (f k) (d k) (h k).1 hdk (by rw [hd k]; exact hk)
      have := hf.step k
      rw [hf'] at this
      injection this with this
      rw [this, hd k] at h4
      rw [this] at h3
      exact ⟨h4, h3⟩
    have all : ∀ k, CovLE (f k).covariance R := by
      intro k
      induction k with
      | zero => rw [hf.start]; exact hle
      | succ k ih => exact (step k ih).1
    exact ⟨all k, (step k (all k)).2⟩

end

/-! ## The mean -/

/-- C106 (d): with `generate_weight` and `compute_covariance_intersection` on vectors and matrices:
fusing the same detection again and again makes the mean converge to that of the detection,
provided the headings (elements number 3, if there are that many) stay at or below the cut. -/
theorem C106_mean {n : ℕ} [NeZero n] {z : Fin n → ℝ} {R : Matrix (Fin n) (Fin n) ℝ} {m : ℕ → Fin n → ℝ}
    {C : ℕ → Matrix (Fin n) (Fin n) ℝ} (h : VectorRun (fun _ => z) (fun _ => R) m C) (hC : (C 0).PosDef) (hR : R.PosDef)
    (hz : ∀ i : Fin n, i.1 = 3 → z i ≤ yawCut) (hm : ∀ k, ∀ i : Fin n, i.1 = 3 → m k i ≤ yawCut) (i : Fin n) :
    Tendsto (fun k => m k i) atTop (𝓝 (z i)) ∧ ∀ j, Tendsto (fun k => C k i j) atTop (𝓝 (R i j)) := by
  have key : ∀ k, (C k).PosDef → C (k + 1) = (fuseInfo (C k) R)⁻¹ ∧ m (k + 1) = (fuseInfo (C k) R)⁻¹ *ᵥ
      (fuseWeight (C k) R • ((C k)⁻¹ *ᵥ m k) + (1 - fuseWeight (C k) R) • (R⁻¹ *ᵥ z)) := by
    intro k hk
    obtain ⟨w, hw, hs⟩ := h.step k
    obtain ⟨h1, h2, h3⟩ := fuseWeight_spec hk hR
    rw [h1] at hw
    obtain rfl := Option.some.inj hw
    rw [covIntersection_posDef hk.inv hR.inv h2 h3, rotateYaw_of_le (hm k), rotateYaw_of_le hz] at hs
    obtain ⟨e1, e2⟩ := Prod.mk.inj (Option.some.inj hs)
    exact ⟨e2.symm, e1.symm⟩
  obtain ⟨r0, r1⟩ := fuseRate_bounds hC.inv hR.inv
  obtain ⟨u, hu0, hus, hu⟩ := info_run hC hR (fun k hk => (key k hk).1)
  have hut := tendsto_of_rate r0.le r1 (fun k => ⟨(hu k).2.1, (hu k).2.2.1⟩)
  have hP : ∀ i j, Tendsto (fun k => C k i j) atTop (𝓝 (R i j)) := fun i j => by
    refine (tendsto_inv (D := (C 0)⁻¹ - R⁻¹) hR hut i j).congr fun k => ?_
    rw [← (hu k).2.2.2, nonsing_inv_nonsing_inv _ (PosDef.isUnit_det (hu k).1)]
  exact ⟨mean_tendsto (fun k => (hu k).1) hut hP (mean_run hR hu0 hus (fun k => (hu k).1)
    (fun k => (key k (hu k).1).1) fun k => (key k (hu k).1).2) i, hP i⟩

/-- the hypotheses of `C106_mean`: vectors with two elements have no heading -/
example : ∃ (z : Fin 2 → ℝ) (R : Matrix (Fin 2) (Fin 2) ℝ) (m : ℕ → Fin 2 → ℝ) (C : ℕ → Matrix (Fin 2) (Fin 2) ℝ),
    VectorRun (fun _ => z) (fun _ => R) m C ∧ (C 0).PosDef ∧ R.PosDef ∧ (∀ i : Fin 2, i.1 = 3 → z i ≤ yawCut) ∧
    (∀ k, ∀ i : Fin 2, i.1 = 3 → m k i ≤ yawCut) ∧ m 0 ≠ z ∧ C 0 ≠ R := by
  let z : Fin 2 → ℝ := ![1, 2]
  let R : Matrix (Fin 2) (Fin 2) ℝ := (3 : ℝ) • 1
  have hR : R.PosDef := PosDef.one.smul (by norm_num)
  let step : (Fin 2 → ℝ) × Matrix (Fin 2) (Fin 2) ℝ → (Fin 2 → ℝ) × Matrix (Fin 2) (Fin 2) ℝ := fun p =>
    ((fuseInfo p.2 R)⁻¹ *ᵥ (fuseWeight p.2 R • (p.2⁻¹ *ᵥ rotateYaw p.1) +
      (1 - fuseWeight p.2 R) • (R⁻¹ *ᵥ rotateYaw z)), (fuseInfo p.2 R)⁻¹)
  let run : ℕ → (Fin 2 → ℝ) × Matrix (Fin 2) (Fin 2) ℝ := fun k => Nat.rec (![0, 0], 1) (fun _ => step) k
  have hrun : ∀ k, run (k + 1) = step (run k) := fun _ => rfl
  have hp : ∀ k, (run k).2.PosDef := by
    intro k
    induction k with
    | zero => exact PosDef.one
    | succ k ih => rw [hrun]; exact (fuseInfo_posDef ih hR).inv
  refine ⟨z, R, fun k => (run k).1, fun k => (run k).2, ⟨fun k => ?_⟩, PosDef.one, hR, fun i hi => absurd hi (by omega),
    fun k i hi => absurd hi (by omega), ?_, ?_⟩
  · obtain ⟨h1, h2, h3⟩ := fuseWeight_spec (hp k) hR
    refine ⟨_, h1, ?_⟩
    rw [covIntersection_posDef (hp k).inv hR.inv h2 h3]
    rfl
  · intro h
    have := congrFun h 0
    have h' : (0 : ℝ) = 1 := this
    norm_num at h'
  · intro h
    have := congrFun (congrFun h 0) 0
    have h' : (1 : Matrix (Fin 2) (Fin 2) ℝ) 0 0 = ((3 : ℝ) • (1 : Matrix (Fin 2) (Fin 2) ℝ)) 0 0 := this
    rw [Matrix.smul_apply, Matrix.one_apply_eq] at h'
    norm_num at h'

private theorem update_congr {n : ℕ} {y : Fin n} {v w : Fin n → ℝ} (h : ∀ i, i ≠ y → v i = w i) :
    Function.update v y 0 = Function.update w y 0 := by
  funext i
  by_cases hi : i = y
  · subst hi; simp
  · rw [Function.update_of_ne hi, Function.update_of_ne hi, h i hi]

private theorem state_run {S : Type} {n : ℕ} [NeZero n] [MotionModel S n] [MotionLaws S n]
    {t : DynObj S (Matrix (Fin n) (Fin n) ℝ)} {d f : ℕ → DynObj S (Matrix (Fin n) (Fin n) ℝ)}
    {R : Matrix (Fin n) (Fin n) ℝ} {z : S} {y : Fin n} (hy : y.1 = 3) (ht : t.covariance.PosDef) (hR : R.PosDef)
    (hd : ∀ k, (d k).covariance = R ∧ (d k).state = z) (hf : FusedRun t d f)
    (hut : Uncorrelated t.covariance y) (hud : Uncorrelated R y) :
    (∀ i, i ≠ y → Tendsto (fun k => MotionModel.toVec (f k).state i) atTop (𝓝 (MotionModel.toVec z i))) ∧
      ∃ s : ℕ → ℝ, (∀ k, 0 < s k) ∧ (∀ k, s k < 1) ∧ Tendsto s atTop (𝓝 (1 / 2)) ∧
        ∀ k, SameDir (MotionModel.toVec (f (k + 1)).state y)
          (s k * rotateHeading (MotionModel.toVec (f k).state y) + (1 - s k) * rotateHeading (MotionModel.toVec z y)) := by
  have inv : ∀ k, (f k).covariance.PosDef ∧ Uncorrelated (f k).covariance y := by
    intro k
    induction k with
    | zero => rw [hf.start]; exact ⟨ht, hut⟩
    | succ k ih =>
      rw [run_cov hR (fun k => (hd k).1) hf k ih.1]
      exact ⟨(fuseInfo_posDef ih.1 hR).inv, uncorrelated_info ih.1 hR ih.2 hud⟩
  have hcov : ∀ k, (f (k + 1)).covariance = (fuseInfo (f k).covariance R)⁻¹ := fun k =>
    run_cov hR (fun k => (hd k).1) hf k (inv k).1
  have hst : ∀ k, SameUpToTurns (MotionModel.toVec (f (k + 1)).state) ((fuseInfo (f k).covariance R)⁻¹ *ᵥ
      (fuseWeight (f k).covariance R • ((f k).covariance⁻¹ *ᵥ rotateYaw (MotionModel.toVec (f k).state)) +
        (1 - fuseWeight (f k).covariance R) • (R⁻¹ *ᵥ rotateYaw (MotionModel.toVec z)))) := by
    intro k
    have h1 := hf.step k
    rw [fusePair_posDef _ _ (inv k).1 (by rw [(hd k).1]; exact hR), (hd k).1, (hd k).2] at h1
    injection h1 with h1
    rw [← h1]
    exact MotionLaws.toVec_ofVec _
  have ne3 : ∀ {i : Fin n}, i ≠ y → i.1 ≠ 3 := fun hi h => hi (Fin.ext (h.trans hy.symm))
  have h0 := (inv 0).1
  obtain ⟨r0, r1⟩ := fuseRate_bounds h0.inv hR.inv
  obtain ⟨u, hu0, hus, hu⟩ := info_run (P := fun k => (f k).covariance) h0 hR (fun k _ => hcov k)
  have hut' := tendsto_of_rate r0.le r1 (fun k => ⟨(hu k).2.1, (hu k).2.2.1⟩)
  have hP : ∀ i j, Tendsto (fun k => (f k).covariance i j) atTop (𝓝 (R i j)) :=
    C106_covariance ht hR (fun k => (hd k).1) hf
  constructor
  · intro i hi
    have e : ∀ k, Function.update (MotionModel.toVec (f (k + 1)).state) y 0 = (fuseInfo (f k).covariance R)⁻¹ *ᵥ
        (fuseWeight (f k).covariance R • ((f k).covariance⁻¹ *ᵥ Function.update (MotionModel.toVec (f k).state) y 0) +
          (1 - fuseWeight (f k).covariance R) • (R⁻¹ *ᵥ Function.update (MotionModel.toVec z) y 0)) := by
      intro k
      have e1 : Function.update (MotionModel.toVec (f k).state) y 0 =
          Function.update (rotateYaw (MotionModel.toVec (f k).state)) y 0 :=
        update_congr fun i hi => (rotateYaw_of_ne (ne3 hi)).symm
      have e2 : Function.update (MotionModel.toVec z) y 0 = Function.update (rotateYaw (MotionModel.toVec z)) y 0 :=
        update_congr fun i hi => (rotateYaw_of_ne (ne3 hi)).symm
      rw [e1, e2, fused_other (inv k).1 hR (inv k).2 hud]
      refine update_congr fun i hi => ?_
      have := hst k i
      rwa [if_neg (ne3 hi)] at this
    have := mean_tendsto (P := fun k => (f k).covariance) (fun k => (hu k).1) hut' hP
      (mean_run (P := fun k => (f k).covariance) (m := fun k => Function.update (MotionModel.toVec (f k).state) y 0)
        hR hu0 hus (fun k => (hu k).1) hcov e) i
    simpa only [Function.update_of_ne hi] using this
  · have hw := tendsto_weight hR hut' fun k => (hu k).2.2.2
    refine ⟨_, fun k => (fused_component_coeff (inv k).1 hR (inv k).2 hud).1,
      fun k => (fused_component_coeff (inv k).1 hR (inv k).2 hud).2.1,
      tendsto_coeff hR (hP y y) hw, fun k => ?_⟩
    have := hst k y
    rw [if_pos hy, (fused_component_coeff (inv k).1 hR (inv k).2 hud).2.2, rotateYaw_heading _ _ hy,
      rotateYaw_heading _ _ hy] at this
    exact this

private theorem near_of_rotated {a b : ℝ} (h : |rotateHeading a - rotateHeading b| ≤ 1 / 10 ^ 11) :
    ∃ δ, |δ| ≤ 2 / 10 ^ 11 ∧ SameDir a (b + δ) := by
  obtain ⟨c1, c2⟩ := yawCut_bounds
  have h := abs_le.1 h
  unfold rotateHeading at h
  norm_num at c2 h
  by_cases ha : a > yawCut <;> by_cases hb : b > yawCut
  · rw [if_pos ha, if_pos hb] at h
    refine ⟨a - b, abs_le.2 ?_, 0, by push_cast; ring⟩
    constructor <;> norm_num <;> linarith
  · rw [if_pos ha, if_neg hb] at h
    refine ⟨a - b - 2 * Real.pi, abs_le.2 ?_, 1, by push_cast; ring⟩
    constructor <;> norm_num <;> linarith
  · rw [if_neg ha, if_pos hb] at h
    refine ⟨a - b + 2 * Real.pi, abs_le.2 ?_, -1, by push_cast; ring⟩
    constructor <;> norm_num <;> linarith
  · rw [if_neg ha, if_neg hb] at h
    refine ⟨a - b, abs_le.2 ?_, 0, by push_cast; ring⟩
    constructor <;> norm_num <;> linarith

/-- C106 (e), CTRV: if the headings are uncorrelated with the rest, fusing the same detection again
and again makes position, speed and yaw rate converge to those of the detection, whatever the
headings. -/
theorem C106_state_ctrv {t : DynObj CtrvState CtrvCov} {d f : ℕ → DynObj CtrvState CtrvCov} {R : CtrvCov}
    {z : CtrvState} (ht : t.covariance.PosDef) (hR : R.PosDef) (hd : ∀ k, (d k).covariance = R ∧ (d k).state = z)
    (hf : FusedRun t d f) (hut : Uncorrelated t.covariance 3) (hud : Uncorrelated R 3) :
    Tendsto (fun k => (f k).state.x) atTop (𝓝 z.x) ∧ Tendsto (fun k => (f k).state.y) atTop (𝓝 z.y) ∧
      Tendsto (fun k => (f k).state.v) atTop (𝓝 z.v) ∧ Tendsto (fun k => (f k).state.yawRate) atTop (𝓝 z.yawRate) := by
  have h := (state_run (n := 5) (y := 3) rfl ht hR hd hf hut hud).1
  exact ⟨h 0 (by decide), h 1 (by decide), h 2 (by decide), h 4 (by decide)⟩

/-- C106 (e), CTRA -/
theorem C106_state_ctra {t : DynObj CtraState CtraCov} {d f : ℕ → DynObj CtraState CtraCov} {R : CtraCov}
    {z : CtraState} (ht : t.covariance.PosDef) (hR : R.PosDef) (hd : ∀ k, (d k).covariance = R ∧ (d k).state = z)
    (hf : FusedRun t d f) (hut : Uncorrelated t.covariance 3) (hud : Uncorrelated R 3) :
    Tendsto (fun k => (f k).state.x) atTop (𝓝 z.x) ∧ Tendsto (fun k => (f k).state.y) atTop (𝓝 z.y) ∧
      Tendsto (fun k => (f k).state.v) atTop (𝓝 z.v) ∧ Tendsto (fun k => (f k).state.yawRate) atTop (𝓝 z.yawRate) ∧
      Tendsto (fun k => (f k).state.a) atTop (𝓝 z.a) := by
  have h := (state_run (n := 6) (y := 3) rfl ht hR hd hf hut hud).1
  exact ⟨h 0 (by decide), h 1 (by decide), h 2 (by decide), h 4 (by decide), h 5 (by decide)⟩

/-- C106 (f), CTRV: likewise the heading, whatever that of the track is: to that of the detection if
the latter is at most 3.14159265359 and not almost 0; to that of the detection minus
4 · (3.14159265359 - π) if it is above, but not by less than 10⁻¹¹ and not almost 2π.  In all cases
but detections less than 10⁻¹¹ above 3.14159265359 it is finally within 2 · 10⁻¹¹ of that of the
detection, as a direction. -/
theorem C106_heading_ctrv {t : DynObj CtrvState CtrvCov} {d f : ℕ → DynObj CtrvState CtrvCov} {R : CtrvCov}
    {z : CtrvState} (ht : t.covariance.PosDef) (hR : R.PosDef) (hd : ∀ k, (d k).covariance = R ∧ (d k).state = z)
    (hf : FusedRun t d f) (hut : Uncorrelated t.covariance 3) (hud : Uncorrelated R 3) :
    (1 / 10 ^ 11 < z.yaw.getAngle → z.yaw.getAngle ≤ 3.14159265359 →
      Tendsto (fun k => (f k).state.yaw.getAngle) atTop (𝓝 z.yaw.getAngle)) ∧
    (3.14159265359 + 1 / 10 ^ 11 ≤ z.yaw.getAngle → z.yaw.getAngle < 2 * Real.pi - 1 / 10 ^ 11 →
      Tendsto (fun k => (f k).state.yaw.getAngle) atTop
        (𝓝 (z.yaw.getAngle - 4 * (3.14159265359 - Real.pi)))) ∧
    (z.yaw.getAngle ≤ 3.14159265359 ∨ 3.14159265359 + 1 / 10 ^ 11 ≤ z.yaw.getAngle →
      ∀ᶠ k in atTop, ∃ δ, |δ| ≤ 2 / 10 ^ 11 ∧ SameDir (f k).state.yaw.getAngle (z.yaw.getAngle + δ)) := by
  obtain ⟨s, s0, s1, st, sr⟩ := (state_run (n := 5) (y := 3) rfl ht hR hd hf hut hud).2
  have hg : ∀ k, 0 ≤ (f k).state.yaw.getAngle ∧ (f k).state.yaw.getAngle < 2 * Real.pi := fun k =>
    MotionLaws.range (S := CtrvState) (f k).state 3 rfl
  have hb : 0 ≤ z.yaw.getAngle ∧ z.yaw.getAngle < 2 * Real.pi := MotionLaws.range (S := CtrvState) z 3 rfl
  have hc : (3.14159265359 : ℝ) = yawCut := by unfold yawCut; norm_num
  rw [hc]
  refine ⟨fun h1 h2 => heading_tendsto_low hg hb s0 s1 st sr (.inl h2) h1 h2,
    fun h1 h2 => heading_tendsto_high hg hb s0 s1 st sr (.inr h1) h1 h2, fun h1 => ?_⟩
  filter_upwards [heading_near hg hb s0 s1 st sr h1] with k hk
  exact near_of_rotated hk

/-- C106 (f), CTRA -/
theorem C106_heading_ctra {t : DynObj CtraState CtraCov} {d f : ℕ → DynObj CtraState CtraCov} {R : CtraCov}
    {z : CtraState} (ht : t.covariance.PosDef) (hR : R.PosDef) (hd : ∀ k, (d k).covariance = R ∧ (d k).state = z)
    (hf : FusedRun t d f) (hut : Uncorrelated t.covariance 3) (hud : Uncorrelated R 3) :
    (1 / 10 ^ 11 < z.yaw.getAngle → z.yaw.getAngle ≤ 3.14159265359 →
      Tendsto (fun k => (f k).state.yaw.getAngle) atTop (𝓝 z.yaw.getAngle)) ∧
    (3.14159265359 + 1 / 10 ^ 11 ≤ z.yaw.getAngle → z.yaw.getAngle < 2 * Real.pi - 1 / 10 ^ 11 →
      Tendsto (fun k => (f k).state.yaw.getAngle) atTop
        (𝓝 (z.yaw.getAngle - 4 * (3.14159265359 - Real.pi)))) ∧
    (z.yaw.getAngle ≤ 3.14159265359 ∨ 3.14159265359 + 1 / 10 ^ 11 ≤ z.yaw.getAngle →
      ∀ᶠ k in atTop, ∃ δ, |δ| ≤ 2 / 10 ^ 11 ∧ SameDir (f k).state.yaw.getAngle (z.yaw.getAngle + δ)) := by
  obtain ⟨s, s0, s1, st, sr⟩ := (state_run (n := 6) (y := 3) rfl ht hR hd hf hut hud).2
  have hg : ∀ k, 0 ≤ (f k).state.yaw.getAngle ∧ (f k).state.yaw.getAngle < 2 * Real.pi := fun k =>
    MotionLaws.range (S := CtraState) (f k).state 3 rfl
  have hb : 0 ≤ z.yaw.getAngle ∧ z.yaw.getAngle < 2 * Real.pi := MotionLaws.range (S := CtraState) z 3 rfl
  have hc : (3.14159265359 : ℝ) = yawCut := by unfold yawCut; norm_num
  rw [hc]
  refine ⟨fun h1 h2 => heading_tendsto_low hg hb s0 s1 st sr (.inl h2) h1 h2,
    fun h1 h2 => heading_tendsto_high hg hb s0 s1 st sr (.inr h1) h1 h2, fun h1 => ?_⟩
  filter_upwards [heading_near hg hb s0 s1 st sr h1] with k hk
  exact near_of_rotated hk

/-- the hypotheses: a track and detections with different, uncorrelated covariances; a run exists by
`C106_exists` -/
example : ∃ (t : DynObj CtrvState CtrvCov) (d f : ℕ → DynObj CtrvState CtrvCov) (R : CtrvCov) (z : CtrvState),
    t.covariance.PosDef ∧ R.PosDef ∧ (∀ k, (d k).covariance = R ∧ (d k).state = z) ∧ FusedRun t d f ∧
    Uncorrelated t.covariance 3 ∧ Uncorrelated R 3 ∧ CovLE t.covariance R ∧ t.covariance ≠ R ∧ t.state ≠ z ∧
    1 / 10 ^ 11 < z.yaw.getAngle ∧ z.yaw.getAngle ≤ 3.14159265359 := by
  let t := sampleObj ⟨[1]⟩ 5 1 1
  let d : ℕ → DynObj CtrvState CtrvCov := fun k => { sampleObj ⟨[2]⟩ k 1 2 with
    state := { (sampleObj ⟨[2]⟩ 5 1 2).state with x := 77, yaw := Angle.ofRad 2 } }
  have hd : ∀ k, (d k).covariance.PosDef := fun k => posDef_two
  obtain ⟨f, hf, -, -⟩ := C106_exists t d PosDef.one hd
  have ha : (Angle.ofRad 2).getAngle = 2 := by
    have := Real.pi_gt_three
    exact Angle.getAngle_ofRad_of_range ⟨by norm_num, by linarith⟩
  refine ⟨t, d, f, 2, (d 0).state, PosDef.one, posDef_two, fun k => ⟨rfl, rfl⟩, hf, ?_, ?_, covLE_one_two, ?_, ?_, ?_, ?_⟩
  · intro j hj
    exact Matrix.one_apply_ne (Ne.symm hj)
  · intro j hj
    show (2 : CtrvCov) 3 j = 0
    rw [← one_add_one_eq_two, Matrix.add_apply, Matrix.one_apply_ne (Ne.symm hj), add_zero]
  · intro h
    have h' : (1 : CtrvCov) 0 0 = (2 : CtrvCov) 0 0 := congrFun (congrFun h 0) 0
    rw [← one_add_one_eq_two, Matrix.add_apply, Matrix.one_apply_eq] at h'
    norm_num at h'
  · intro h
    have h' : t.state.x = 77 := congrArg CtrvState.x h
    simp only [t, sampleObj] at h'
    norm_num at h'
  · show _ < (Angle.ofRad 2).getAngle
    rw [ha]; norm_num
  · show (Angle.ofRad 2).getAngle ≤ _
    rw [ha]; norm_num

end Mot.Props
