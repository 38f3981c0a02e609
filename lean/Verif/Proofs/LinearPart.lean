import Verif.Proofs.Ukf
/-!
# Components of the prediction that depend linearly on the state
-/

namespace Mot

open Matrix Spec

theorem sum_get_congr {n : ℕ} {rows rows' : List (Fin n → ℝ)} (I : Fin n → Prop)
    (h : List.Forall₂ (fun p q => ∀ i, I i → p i = q i) rows rows') :
    rows.length = rows'.length ∧ ∀ (k : ℕ) (h1 : k < rows.length) (h2 : k < rows'.length) i, I i →
      rows.get ⟨k, h1⟩ i = rows'.get ⟨k, h2⟩ i := by
  induction h with
  | nil => exact ⟨rfl, fun k h1 => absurd h1 (Nat.not_lt_zero _)⟩
  | cons h0 _ ih =>
    refine ⟨by rw [List.length_cons, List.length_cons, ih.1], fun k h1 h2 i hi => ?_⟩
    cases k with
    | zero => exact h0 i hi
    | succ k => exact ih.2 k (Nat.lt_of_succ_lt_succ h1) (Nat.lt_of_succ_lt_succ h2) i hi

/-- the result of the transform in some components depends only on these components -/
theorem computeUt_congr_at {n : ℕ} {rows rows' : List (Fin n → ℝ)} (I : Fin n → Prop)
    (h : List.Forall₂ (fun p q => ∀ i, I i → p i = q i) rows rows') {wm wc : List ℝ}
    {x' : Fin n → ℝ} {P' : Matrix (Fin n) (Fin n) ℝ} (h' : computeUt rows' wm wc = .ok (x', P')) :
    ∃ x P, computeUt rows wm wc = .ok (x, P) ∧ (∀ i, I i → x i = x' i) ∧
      ∀ i j, I i → I j → P i j = P' i j := by
  obtain ⟨hl, hk⟩ := sum_get_congr I h
  have hw' := computeUt_isWeighted _ _ _ h'
  rcases hp : computeUt rows wm wc with ⟨x, P⟩ | e | w
  · have hw := computeUt_isWeighted _ _ _ hp
    have hx : ∀ i, I i → x i = x' i := by
      intro i hi
      rw [hw.mean, hw'.mean]
      refine Fintype.sum_equiv (finCongr hl) _ _ fun k => ?_
      have := hk k.1 k.2 (hl ▸ k.2) i hi
      simp only [Fin.eta] at this
      rw [this]
      rfl
    refine ⟨x, P, rfl, hx, fun i j hi hj => ?_⟩
    rw [hw.cov, hw'.cov]
    refine Fintype.sum_equiv (finCongr hl) _ _ fun k => ?_
    have h1 := hk k.1 k.2 (hl ▸ k.2) i hi
    have h2 := hk k.1 k.2 (hl ▸ k.2) j hj
    simp only [Fin.eta] at h1 h2
    rw [h1, h2, hx i hi, hx j hj]
    rfl
  all_goals
    unfold computeUt at hp
    rw [if_pos ⟨hw'.lengths.1.trans hl.symm, hw'.lengths.2.trans hl.symm⟩] at hp
    cases hp

section
variable {S : Type} {n : ℕ} [MotionModel S n] [MotionLaws S n]

/-- The prediction is exact in those components that are an affine function of the state at
all sigma points, if the factor that is used belongs to the covariance `Q`. -/
theorem ukfPredict_affine_of_factor {chol : Chol} (s : S)
    {P Q : Matrix (Fin n) (Fin n) ℝ} (hQ : chol n P * (chol n P)ᵀ = Q) {α β κ dt : ℝ} (hN : 0 < α ^ 2 * (n + κ))
    (I : Fin n → Prop) (A : Matrix (Fin n) (Fin n) ℝ) (b : Fin n → ℝ)
    (h : ∀ (p : S) (z : Fin n → ℝ), SameUpToTurns (MotionModel.toVec p) z →
      (∀ k, |(A *ᵥ z) k - (A *ᵥ MotionModel.toVec s) k| ≤
        √(α ^ 2 * (n + κ) * (A * Q * Aᵀ) k k)) →
      ∀ i, I i → rotateYaw (MotionModel.toVec (MotionModel.next p dt)) i = (A *ᵥ z + b) i) :
    ∃ x P', ukfPredict chol s P dt α β κ = .ok (MotionModel.ofVec x, P') ∧
      (∀ i, I i → x i = (A *ᵥ MotionModel.toVec s + b) i) ∧
      ∀ i j, I i → I j → P' i j = (A * Q * Aᵀ) i j := by
  have hw := weight_total (n := n) (lam := generateLambda n α κ) (by rw [lambda_sum]; exact hN.ne')
  rw [lambda_sum] at hw
  have hut := computeUt_affine hN (c₀ := generateLambda n α κ / (α ^ 2 * (n + κ)) + (1 - α ^ 2 + β))
    hw (MotionModel.toVec s) (chol n P) A b
  rw [hQ] at hut
  have hAL : A * chol n P * (A * chol n P)ᵀ = A * Q * Aᵀ := by
    rw [transpose_mul, Matrix.mul_assoc, ← Matrix.mul_assoc (chol n P), hQ,
      ← Matrix.mul_assoc]
  have hentry : ∀ k j, |√(α ^ 2 * (n + κ)) * (A *ᵥ (chol n P).col j) k| ≤
      √(α ^ 2 * (n + κ) * (A * Q * Aᵀ) k k) := by
    intro k j
    rw [Real.sqrt_mul hN.le, abs_mul, abs_of_nonneg (Real.sqrt_nonneg _)]
    exact mul_le_mul_of_nonneg_left (cholesky_entry_le hAL k j) (Real.sqrt_nonneg _)
  have hrows : List.Forall₂ (fun p q => ∀ i, I i → p i = q i)
      (predictedRows s (chol n P) √(α ^ 2 * (n + κ)) dt)
      ((MotionModel.toVec s :: symPoints (MotionModel.toVec s)
        fun j => √(α ^ 2 * (n + κ)) • (chol n P).col j).map fun p => A *ᵥ p + b) := by
    unfold predictedRows sigmaLoop symPoints
    rw [List.map_cons, List.map_cons, List.map_flatMap, List.map_flatMap]
    refine .cons (h _ _ (sameUpToTurns_refl _) fun k => ?_) ?_
    · rw [sub_self, abs_zero]; exact Real.sqrt_nonneg _
    · generalize List.finRange n = js
      induction js with
      | nil => exact .nil
      | cons j js ih =>
        rw [List.flatMap_cons, List.flatMap_cons]
        simp only [List.map_cons, List.map_nil, List.cons_append, List.nil_append]
        refine .cons (h _ _ (MotionLaws.toVec_add s _) fun k => ?_)
          (.cons (h _ _ (MotionLaws.toVec_sub s _) fun k => ?_) ih)
        · rw [mulVec_add, Pi.add_apply, add_sub_cancel_left, mulVec_smul, Pi.smul_apply, smul_eq_mul]
          exact hentry k j
        · rw [mulVec_sub, Pi.sub_apply, sub_sub_cancel_left, abs_neg, mulVec_smul, Pi.smul_apply,
            smul_eq_mul]
          exact hentry k j
  obtain ⟨x, P', h1, h2, h3⟩ := computeUt_congr_at I hrows hut
  refine ⟨x, P', ?_, h2, h3⟩
  rw [ukfPredict_eq chol s P dt α β κ hN, h1]

/-- The prediction is exact in those components that are an affine function of the state at
all sigma points. -/
theorem ukfPredict_affine {chol : Chol} (hchol : IsLlt chol) (s : S)
    {P : Matrix (Fin n) (Fin n) ℝ} (hP : P.PosDef) {α β κ dt : ℝ} (hN : 0 < α ^ 2 * (n + κ))
    (I : Fin n → Prop) (A : Matrix (Fin n) (Fin n) ℝ) (b : Fin n → ℝ)
    (h : ∀ (p : S) (z : Fin n → ℝ), SameUpToTurns (MotionModel.toVec p) z →
      (∀ k, |(A *ᵥ z) k - (A *ᵥ MotionModel.toVec s) k| ≤
        √(α ^ 2 * (n + κ) * (A * P * Aᵀ) k k)) →
      ∀ i, I i → rotateYaw (MotionModel.toVec (MotionModel.next p dt)) i = (A *ᵥ z + b) i) :
    ∃ x P', ukfPredict chol s P dt α β κ = .ok (MotionModel.ofVec x, P') ∧
      (∀ i, I i → x i = (A *ᵥ MotionModel.toVec s + b) i) ∧
      ∀ i j, I i → I j → P' i j = (A * P * Aᵀ) i j :=
  ukfPredict_affine_of_factor s (hchol n P hP).factor hN I A b h

end

/-- the linear motion of speed, heading, turn rate and acceleration of a CTRA object -/
def ctraStep (dt : ℝ) : Matrix (Fin 6) (Fin 6) ℝ :=
  !![1, 0, 0, 0, 0, 0; 0, 1, 0, 0, 0, 0; 0, 0, 1, 0, 0, dt; 0, 0, 0, 1, dt, 0; 0, 0, 0, 0, 1, 0;
     0, 0, 0, 0, 0, 1]

/-- the linear motion of speed, heading and turn rate of a CTRV object -/
def ctrvStep (dt : ℝ) : Matrix (Fin 5) (Fin 5) ℝ :=
  !![1, 0, 0, 0, 0; 0, 1, 0, 0, 0; 0, 0, 1, 0, 0; 0, 0, 0, 1, dt; 0, 0, 0, 0, 1]

theorem ctraStep_mulVec (dt : ℝ) (z : Fin 6 → ℝ) :
    ctraStep dt *ᵥ z = ![z 0, z 1, z 2 + dt * z 5, z 3 + dt * z 4, z 4, z 5] := by
  funext i
  fin_cases i <;> simp [ctraStep, mulVec, dotProduct, Fin.sum_univ_succ]

theorem ctrvStep_mulVec (dt : ℝ) (z : Fin 5 → ℝ) :
    ctrvStep dt *ᵥ z = ![z 0, z 1, z 2, z 3 + dt * z 4, z 4] := by
  funext i
  fin_cases i <;> simp [ctrvStep, mulVec, dotProduct, Fin.sum_univ_succ]

theorem sandwich_apply {n : ℕ} (A P : Matrix (Fin n) (Fin n) ℝ) (i j : Fin n) :
    (A * P * Aᵀ) i j = (A *ᵥ fun k => (A *ᵥ fun l => P l k) i) j := by
  rw [mul_apply]
  simp only [mulVec, dotProduct, mul_apply, transpose_apply]
  exact Finset.sum_congr rfl fun k _ => mul_comm _ _

/-- an angle within [0, cut] is found again after wrapping and cutting -/
theorem rotateYaw_three {n : ℕ} {v : Fin n → ℝ} {i : Fin n} {z : ℝ}
    (h : SameDir (v i) z) (hv : 0 ≤ v i ∧ v i < 2 * Real.pi) (hz : 0 ≤ z ∧ z ≤ yawCut) :
    rotateYaw v i = z := by
  have hc := yawCut_bounds
  have hpi := Real.pi_gt_three
  have e : v i = z := h.eq_of_range hv ⟨hz.1, by linarith [hz.2]⟩
  unfold rotateYaw
  rw [if_neg (by rintro ⟨-, h⟩; rw [e] at h; linarith [hz.2]), e]

/-- an angle above the cut ends up twice the cut lower -/
theorem rotateYaw_three_high {n : ℕ} {v : Fin n → ℝ} {i : Fin n} (hi : i.1 = 3) {z : ℝ}
    (h : SameDir (v i) z) (hv : 0 ≤ v i ∧ v i < 2 * Real.pi) (hz : yawCut < z ∧ z < 2 * Real.pi) :
    rotateYaw v i = z - 2 * yawCut := by
  have hc := yawCut_bounds
  have hpi := Real.pi_gt_three
  have e : v i = z := h.eq_of_range hv ⟨by norm_num at hc; linarith [hz.1], hz.2⟩
  unfold rotateYaw
  rw [if_pos ⟨hi, by rw [e]; exact hz.1⟩, e]

theorem next_yaw_sameDir (a : Angle) (w dt : ℝ) {z : ℝ} (h : SameDir a.getAngle z) :
    SameDir (a.add (Angle.ofRad (w * dt))).getAngle (z + dt * w) := by
  refine (Angle.sameDir_getAngle_add_ofRad _ _).trans ?_
  rw [mul_comm]
  exact h.add (SameDir.refl _)

theorem sameDir_shift {c e : ℝ} (h : SameDir c e) (d : ℝ) : SameDir d (d + (c - e)) := by
  have h2 := (SameDir.refl d).add (h.sub (SameDir.refl e))
  rw [sub_self, add_zero] at h2
  exact h2.symm

theorem high_heading {c r : ℝ} (hr : 0 ≤ r) (h0 : yawCut + r < c) (h1 : c + r < 2 * Real.pi) :
    |(Angle.ofRad (c + -(2 * yawCut))).getAngle - c| < 2 / 10 ^ 12 := by
  obtain ⟨c1, c2⟩ := yawCut_bounds
  have hpi := Real.pi_gt_three
  have e : (Angle.ofRad (c + -(2 * yawCut))).getAngle = c - 2 * yawCut + 2 * Real.pi := by
    rw [show Angle.ofRad (c + -(2 * yawCut)) = Angle.ofRad (c - 2 * yawCut + 2 * Real.pi) from
      Angle.ofRad_eq_iff.2 ⟨-1, by push_cast; ring⟩]
    refine Angle.getAngle_ofRad_of_range ⟨?_, ?_⟩
    · norm_num at c2
      linarith
    · linarith
  rw [e, abs_lt]
  norm_num at c2 ⊢
  constructor <;> linarith

/-- the predicted heading of a CTRV object if all sigma points are cut alike -/
theorem ctrv_heading {chol : Chol} (hchol : IsLlt chol) {o : DynObj CtrvState CtrvCov}
    (hP : o.covariance.PosDef) {α β κ dt c r t : ℝ} (hN : 0 < α ^ 2 * (5 + κ))
    (hc : SameDir c (o.state.yaw.getAngle + dt * o.state.yawRate))
    (hr : r = √(α ^ 2 * (5 + κ) *
      (o.covariance 3 3 + 2 * dt * o.covariance 3 4 + dt ^ 2 * o.covariance 4 4)))
    (hrow : ∀ (v : Fin 5 → ℝ) (z : ℝ), SameDir (v 3) z → 0 ≤ v 3 ∧ v 3 < 2 * Real.pi →
      c - r ≤ z → z ≤ c + r → rotateYaw v 3 = z + t) :
    ∃ s P', ukfPredict chol o.state o.covariance dt α β κ = .ok (s, P') ∧
      s.yaw = Angle.ofRad (c + t) ∧
      P' 3 3 = o.covariance 3 3 + 2 * dt * o.covariance 3 4 + dt ^ 2 * o.covariance 4 4 ∧
      P' 3 4 = o.covariance 3 4 + dt * o.covariance 4 4 ∧
      P' 2 3 = o.covariance 2 3 + dt * o.covariance 2 4 := by
  have sym : ∀ i j, o.covariance i j = o.covariance j i := fun i j => hP.1.apply j i
  have hvar : (ctrvStep dt * o.covariance * (ctrvStep dt)ᵀ) 3 3 =
      o.covariance 3 3 + 2 * dt * o.covariance 3 4 + dt ^ 2 * o.covariance 4 4 := by
    simp only [sandwich_apply, ctrvStep_mulVec]
    show o.covariance 3 3 + dt * o.covariance 4 3 + dt * (o.covariance 3 4 + dt * o.covariance 4 4) = _
    rw [sym 4 3]; ring
  obtain ⟨x, P', e1, e2, e3⟩ := ukfPredict_affine hchol o.state hP (β := β) (κ := κ) (α := α)
    (dt := dt) (by exact_mod_cast hN) (fun i => i = 2 ∨ i = 3 ∨ i = 4) (ctrvStep dt)
    (headingVec 5 (c - (o.state.yaw.getAngle + dt * o.state.yawRate) + t)) (by
      intro q z hz hb i hi
      have hb3 := hb 3
      rw [hvar] at hb3
      push_cast at hb3
      rw [← hr] at hb3
      rw [ctrvStep_mulVec]
      rw [ctrvStep_mulVec, ctrvStep_mulVec] at hb3
      rcases hi with rfl | rfl | rfl
      · rw [rotateYaw_of_ne (by decide)]
        exact (hz 2).trans (add_zero _).symm
      · have d3 : SameDir q.yaw.getAngle (z 3) := hz 3
        have e4 : q.yawRate = z 4 := hz 4
        have hd := next_yaw_sameDir q.yaw q.yawRate dt d3
        rw [e4] at hd
        obtain ⟨b1, b2⟩ := abs_le.1 (show |z 3 + dt * z 4 -
          (o.state.yaw.getAngle + dt * o.state.yawRate)| ≤ r from hb3)
        show rotateYaw _ _ =
          z 3 + dt * z 4 + (c - (o.state.yaw.getAngle + dt * o.state.yawRate) + t)
        rw [← add_assoc]
        refine hrow _ _ (?_ : SameDir (q.yaw.add (Angle.ofRad (q.yawRate * dt))).getAngle _)
          (Angle.getAngle_range _) (by linarith) (by linarith)
        rw [e4]
        exact hd.trans (sameDir_shift hc _)
      · rw [rotateYaw_of_ne (by decide)]
        exact (hz 4).trans (add_zero _).symm)
  refine ⟨_, _, e1, ?_, ?_, ?_, ?_⟩
  · show Angle.ofRad (x 3) = _
    rw [e2 3 (.inr (.inl rfl)), ctrvStep_mulVec]
    congr 1
    show o.state.yaw.getAngle + _ * o.state.yawRate + (c - _ + t) = c + t
    ring
  · exact (e3 3 3 (.inr (.inl rfl)) (.inr (.inl rfl))).trans hvar
  · refine (e3 3 4 (.inr (.inl rfl)) (.inr (.inr rfl))).trans ?_
    simp only [sandwich_apply, ctrvStep_mulVec]
    rfl
  · refine (e3 2 3 (.inl rfl) (.inr (.inl rfl))).trans ?_
    simp only [sandwich_apply, ctrvStep_mulVec]
    rfl

/-- the predicted heading of a CTRA object if all sigma points are cut alike -/
theorem ctra_heading {chol : Chol} (hchol : IsLlt chol) {o : DynObj CtraState CtraCov}
    (hP : o.covariance.PosDef) {α β κ dt c r t : ℝ} (hN : 0 < α ^ 2 * (6 + κ))
    (hc : SameDir c (o.state.yaw.getAngle + dt * o.state.yawRate))
    (hr : r = √(α ^ 2 * (6 + κ) *
      (o.covariance 3 3 + 2 * dt * o.covariance 3 4 + dt ^ 2 * o.covariance 4 4)))
    (hrow : ∀ (v : Fin 6 → ℝ) (z : ℝ), SameDir (v 3) z → 0 ≤ v 3 ∧ v 3 < 2 * Real.pi →
      c - r ≤ z → z ≤ c + r → rotateYaw v 3 = z + t) :
    ∃ s P', ukfPredict chol o.state o.covariance dt α β κ = .ok (s, P') ∧
      s.yaw = Angle.ofRad (c + t) ∧
      P' 3 3 = o.covariance 3 3 + 2 * dt * o.covariance 3 4 + dt ^ 2 * o.covariance 4 4 ∧
      P' 3 4 = o.covariance 3 4 + dt * o.covariance 4 4 ∧
      P' 2 3 = o.covariance 2 3 + dt * o.covariance 2 4 +
        dt * (o.covariance 3 5 + dt * o.covariance 4 5) ∧
      P' 3 5 = o.covariance 3 5 + dt * o.covariance 4 5 := by
  have sym : ∀ i j, o.covariance i j = o.covariance j i := fun i j => hP.1.apply j i
  have hvar : (ctraStep dt * o.covariance * (ctraStep dt)ᵀ) 3 3 =
      o.covariance 3 3 + 2 * dt * o.covariance 3 4 + dt ^ 2 * o.covariance 4 4 := by
    simp only [sandwich_apply, ctraStep_mulVec]
    show o.covariance 3 3 + dt * o.covariance 4 3 + dt * (o.covariance 3 4 + dt * o.covariance 4 4) = _
    rw [sym 4 3]; ring
  obtain ⟨x, P', e1, e2, e3⟩ := ukfPredict_affine hchol o.state hP (β := β) (κ := κ) (α := α)
    (dt := dt) (by exact_mod_cast hN) (fun i => i = 2 ∨ i = 3 ∨ i = 4 ∨ i = 5) (ctraStep dt)
    (headingVec 6 (c - (o.state.yaw.getAngle + dt * o.state.yawRate) + t)) (by
      intro q z hz hb i hi
      have hb3 := hb 3
      rw [hvar] at hb3
      push_cast at hb3
      rw [← hr] at hb3
      rw [ctraStep_mulVec]
      rw [ctraStep_mulVec, ctraStep_mulVec] at hb3
      rcases hi with rfl | rfl | rfl | rfl
      · rw [rotateYaw_of_ne (by decide)]
        have e2 : q.v = z 2 := hz 2
        have e5 : q.a = z 5 := hz 5
        show q.v + q.a * dt = z 2 + dt * z 5 + 0
        rw [e2, e5, mul_comm, add_zero]
      · have d3 : SameDir q.yaw.getAngle (z 3) := hz 3
        have e4 : q.yawRate = z 4 := hz 4
        have hd := next_yaw_sameDir q.yaw q.yawRate dt d3
        rw [e4] at hd
        obtain ⟨b1, b2⟩ := abs_le.1 (show |z 3 + dt * z 4 -
          (o.state.yaw.getAngle + dt * o.state.yawRate)| ≤ r from hb3)
        show rotateYaw _ _ =
          z 3 + dt * z 4 + (c - (o.state.yaw.getAngle + dt * o.state.yawRate) + t)
        rw [← add_assoc]
        refine hrow _ _ (?_ : SameDir (q.yaw.add (Angle.ofRad (q.yawRate * dt))).getAngle _)
          (Angle.getAngle_range _) (by linarith) (by linarith)
        rw [e4]
        exact hd.trans (sameDir_shift hc _)
      · rw [rotateYaw_of_ne (by decide)]
        exact (hz 4).trans (add_zero _).symm
      · rw [rotateYaw_of_ne (by decide)]
        exact (hz 5).trans (add_zero _).symm)
  refine ⟨_, _, e1, ?_, ?_, ?_, ?_, ?_⟩
  · show Angle.ofRad (x 3) = _
    rw [e2 3 (.inr (.inl rfl)), ctraStep_mulVec]
    congr 1
    show o.state.yaw.getAngle + _ * o.state.yawRate + (c - _ + t) = c + t
    ring
  · exact (e3 3 3 (.inr (.inl rfl)) (.inr (.inl rfl))).trans hvar
  · refine (e3 3 4 (.inr (.inl rfl)) (.inr (.inr (.inl rfl)))).trans ?_
    simp only [sandwich_apply, ctraStep_mulVec]
    rfl
  · refine (e3 2 3 (.inl rfl) (.inr (.inl rfl))).trans ?_
    simp only [sandwich_apply, ctraStep_mulVec]
    show o.covariance 2 3 + dt * o.covariance 5 3 +
      dt * (o.covariance 2 4 + dt * o.covariance 5 4) = _
    rw [sym 5 3, sym 5 4]; ring
  · refine (e3 3 5 (.inr (.inl rfl)) (.inr (.inr (.inr rfl)))).trans ?_
    simp only [sandwich_apply, ctraStep_mulVec]
    rfl

end Mot
