import Verif.Spec.Converge
import Verif.Proofs.Fusing
import Verif.Proofs.Ukf
import Mathlib.Analysis.SpecificLimits.Basic
/-!
# Lemmas on repeated fusing
-/

namespace Mot

open Matrix Spec Filter Topology

variable {n : ℕ}

/-- the rate: one fusing step shrinks the difference of information matrices at least by this -/
noncomputable def fuseRate (A B : Matrix (Fin n) (Fin n) ℝ) : ℝ := 1 - B.det / (2 * (A + B + B).det)

theorem fuseRate_bounds [NeZero n] {A B : Matrix (Fin n) (Fin n) ℝ} (hA : A.PosDef) (hB : B.PosDef) :
    0 < fuseRate A B ∧ fuseRate A B < 1 := by
  have h1 := hB.det_pos
  have h2 := ((hA.add hB).add hB).det_pos
  have h3 := det_lt_det_add hB (hA.add hB)
  rw [add_comm B (A + B)] at h3
  unfold fuseRate
  constructor
  · rw [sub_pos, div_lt_one (by linarith)]
    linarith
  · rw [sub_lt_self_iff]
    exact div_pos h1 (by linarith)

theorem weight_le_rate [NeZero n] {A B : Matrix (Fin n) (Fin n) ℝ} (hA : A.PosDef) (hB : B.PosDef) {u : ℝ}
    (hu0 : 0 < u) (hu1 : u ≤ 1) (w : ℝ) (hw : generateWeight (B + u • (A - B)) B = some w) : w ≤ fuseRate A B := by
  have e : B + u • (A - B) = u • A + (1 - u) • B := by
    rw [smul_sub, sub_smul, one_smul]
    abel
  rw [e] at hw
  have hM : (u • A + (1 - u) • B).PosDef :=
    (hA.smul hu0).add_posSemidef (hB.posSemidef.smul (by linarith))
  obtain ⟨w', h1, h2, h3, h4⟩ := generateWeight_posDef hM hB
  rw [hw] at h1
  obtain rfl := Option.some.inj h1
  set M := u • A + (1 - u) • B with hMdef
  have hK : ((1 - u) • A + u • B).PosDef :=
    PosDef.posSemidef_add (hA.posSemidef.smul (by linarith)) (hB.smul hu0)
  have d1 := det_lt_det_add hM hB
  have d2 := det_lt_det_add (hM.add hB) hK
  have es : M + B + ((1 - u) • A + u • B) = A + B + B := by
    rw [hMdef, sub_smul, sub_smul, one_smul, one_smul]
    abel
  rw [es] at d2
  have p1 := hM.det_pos
  have p2 := hB.det_pos
  have p3 : 0 < (M + B).det := (hM.add hB).det_pos
  rw [h4]
  unfold fuseRate
  have e1 : ((M + B).det - B.det + M.det) / (2 * (M + B).det) =
      1 - ((M + B).det + B.det - M.det) / (2 * (M + B).det) := by
    field_simp
    ring
  rw [e1]
  have e2 : B.det / (2 * (A + B + B).det) ≤ B.det / (2 * (M + B).det) :=
    div_le_div_of_nonneg_left p2.le (by linarith) (by linarith)
  have e3 : B.det / (2 * (M + B).det) ≤ ((M + B).det + B.det - M.det) / (2 * (M + B).det) :=
    div_le_div_of_nonneg_right (by linarith) (by linarith)
  linarith

/-- the information matrices on the segment between `A` and `B` converge -/
theorem info_run [NeZero n] {P : ℕ → Matrix (Fin n) (Fin n) ℝ} {R : Matrix (Fin n) (Fin n) ℝ}
    (h0 : (P 0).PosDef) (hR : R.PosDef) (hs : ∀ k, (P k).PosDef → P (k + 1) = (fuseInfo (P k) R)⁻¹) :
    ∃ u : ℕ → ℝ, u 0 = 1 ∧ (∀ k, u (k + 1) = fuseWeight (P k) R * u k) ∧ ∀ k, (P k).PosDef ∧ 0 < u k ∧
      u k ≤ fuseRate (P 0)⁻¹ R⁻¹ ^ k ∧ (P k)⁻¹ = R⁻¹ + u k • ((P 0)⁻¹ - R⁻¹) := by
  obtain ⟨r0, r1⟩ := fuseRate_bounds h0.inv hR.inv
  obtain ⟨u, hu0, hu⟩ : ∃ u : ℕ → ℝ, u 0 = 1 ∧ ∀ k, u (k + 1) = fuseWeight (P k) R * u k :=
    ⟨fun k => Nat.rec 1 (fun k x => fuseWeight (P k) R * x) k, rfl, fun _ => rfl⟩
  refine ⟨u, hu0, hu, fun k => ?_⟩
  induction k with
  | zero => exact ⟨h0, by rw [hu0]; exact one_pos, by simp [hu0], by simp [hu0]⟩
  | succ k ih =>
    obtain ⟨i1, i2, i3, i4⟩ := ih
    rw [hu]
    obtain ⟨w1, w2, w3⟩ := fuseWeight_spec i1 hR
    have hI := fuseInfo_posDef i1 hR
    have hle : fuseWeight (P k) R ≤ fuseRate (P 0)⁻¹ R⁻¹ := by
      refine weight_le_rate h0.inv hR.inv i2 (i3.trans (pow_le_one₀ r0.le r1.le)) _ ?_
      rw [← i4]
      exact w1
    refine ⟨by rw [hs k i1]; exact hI.inv, mul_pos w2 i2, ?_, ?_⟩
    · rw [pow_succ']
      exact mul_le_mul hle i3 i2.le r0.le
    · rw [hs k i1, nonsing_inv_nonsing_inv _ (PosDef.isUnit_det hI)]
      unfold fuseInfo
      rw [i4, smul_add, smul_smul, sub_smul, one_smul]
      abel

theorem tendsto_of_rate {u : ℕ → ℝ} {r : ℝ} (h0 : 0 ≤ r) (h1 : r < 1) (hu : ∀ k, 0 < u k ∧ u k ≤ r ^ k) :
    Tendsto u atTop (𝓝 0) :=
  squeeze_zero (fun k => (hu k).1.le) (fun k => (hu k).2) (tendsto_pow_atTop_nhds_zero_of_lt_one h0 h1)

theorem inv_entry (M : Matrix (Fin n) (Fin n) ℝ) (i j : Fin n) : M⁻¹ i j = M.det⁻¹ * M.adjugate i j := by
  rw [inv_def, Matrix.smul_apply, smul_eq_mul, Ring.inverse_eq_inv']

/-- inverses converge -/
theorem tendsto_inv {R D : Matrix (Fin n) (Fin n) ℝ} (hR : R.PosDef) {u : ℕ → ℝ} (hu : Tendsto u atTop (𝓝 0))
    (i j : Fin n) : Tendsto (fun k => (R⁻¹ + u k • D)⁻¹ i j) atTop (𝓝 (R i j)) := by
  have hc : Continuous fun x : ℝ => R⁻¹ + x • D := by fun_prop
  have hd : Continuous fun x : ℝ => (R⁻¹ + x • D).det := hc.matrix_det
  have ha : Continuous fun x : ℝ => (R⁻¹ + x • D).adjugate i j := hc.matrix_adjugate.matrix_elem i j
  have h0 : (R⁻¹ + (0 : ℝ) • D).det ≠ 0 := by
    rw [zero_smul, add_zero]
    exact hR.inv.det_pos.ne'
  have hf : ContinuousAt (fun x : ℝ => (R⁻¹ + x • D)⁻¹ i j) 0 := by
    simp only [inv_entry]
    exact (hd.continuousAt.inv₀ h0).mul ha.continuousAt
  have := hf.tendsto.comp hu
  rwa [zero_smul, add_zero, nonsing_inv_nonsing_inv _ (PosDef.isUnit_det hR)] at this

/-- weights converge to 1/2 -/
theorem tendsto_weight [NeZero n] {P : ℕ → Matrix (Fin n) (Fin n) ℝ} {R D : Matrix (Fin n) (Fin n) ℝ} (hR : R.PosDef)
    {u : ℕ → ℝ} (hu : Tendsto u atTop (𝓝 0)) (hP : ∀ k, (P k)⁻¹ = R⁻¹ + u k • D) :
    Tendsto (fun k => fuseWeight (P k) R) atTop (𝓝 (1 / 2)) := by
  have hc : Continuous fun x : ℝ => R⁻¹ + x • D := by fun_prop
  have hd : Continuous fun x : ℝ => (R⁻¹ + x • D).det := hc.matrix_det
  have hs : Continuous fun x : ℝ => (R⁻¹ + x • D + R⁻¹).det := (hc.add continuous_const).matrix_det
  have hpos : 0 < (R⁻¹ + R⁻¹).det := (hR.inv.add hR.inv).det_pos
  have hf : ContinuousAt (fun x : ℝ => ((R⁻¹ + x • D + R⁻¹).det - (R⁻¹).det + (R⁻¹ + x • D).det) /
      (2 * (R⁻¹ + x • D + R⁻¹).det)) 0 := by
    refine ContinuousAt.div (by fun_prop) (by fun_prop) ?_
    rw [zero_smul, add_zero]
    linarith
  have := hf.tendsto.comp hu
  rw [zero_smul, add_zero, sub_add_cancel] at this
  have e : (R⁻¹ + R⁻¹).det / (2 * (R⁻¹ + R⁻¹).det) = 1 / 2 := by
    field_simp
  rw [e] at this
  refine this.congr fun k => ?_
  unfold fuseWeight
  rw [hP k]
  rfl

/-- the error of the mean, in information space -/
theorem mean_run [NeZero n] {P : ℕ → Matrix (Fin n) (Fin n) ℝ} {R : Matrix (Fin n) (Fin n) ℝ} {u : ℕ → ℝ}
    (hR : R.PosDef) (hu0 : u 0 = 1) (hu : ∀ k, u (k + 1) = fuseWeight (P k) R * u k) (hp : ∀ k, (P k).PosDef)
    (hs : ∀ k, P (k + 1) = (fuseInfo (P k) R)⁻¹) {m : ℕ → Fin n → ℝ} {z : Fin n → ℝ}
    (hm : ∀ k, m (k + 1) = (fuseInfo (P k) R)⁻¹ *ᵥ
      (fuseWeight (P k) R • ((P k)⁻¹ *ᵥ m k) + (1 - fuseWeight (P k) R) • (R⁻¹ *ᵥ z))) (k : ℕ) :
    (P k)⁻¹ *ᵥ (m k - z) = u k • ((P 0)⁻¹ *ᵥ (m 0 - z)) := by
  induction k with
  | zero => rw [hu0, one_smul]
  | succ k ih =>
    have hI := PosDef.isUnit_det (fuseInfo_posDef (hp k) hR)
    rw [hs k, nonsing_inv_nonsing_inv _ hI, mulVec_sub, hm k, mulVec_mulVec, mul_nonsing_inv _ hI, one_mulVec,
      hu k, ← smul_smul, ← ih]
    unfold fuseInfo
    rw [add_mulVec, smul_mulVec, smul_mulVec, mulVec_sub, smul_sub]
    abel

theorem mean_tendsto [NeZero n] {P : ℕ → Matrix (Fin n) (Fin n) ℝ} {R : Matrix (Fin n) (Fin n) ℝ} {u : ℕ → ℝ}
    (hp : ∀ k, (P k).PosDef) (hut : Tendsto u atTop (𝓝 0))
    (hP : ∀ i j, Tendsto (fun k => P k i j) atTop (𝓝 (R i j))) {m : ℕ → Fin n → ℝ} {z b : Fin n → ℝ}
    (hm : ∀ k, (P k)⁻¹ *ᵥ (m k - z) = u k • b) (i : Fin n) : Tendsto (fun k => m k i) atTop (𝓝 (z i)) := by
  have e : ∀ k, m k i = z i + u k * ∑ j, P k i j * b j := by
    intro k
    have h1 : m k - z = u k • (P k *ᵥ b) := by
      have := congrArg (P k *ᵥ ·) (hm k)
      simp only [mulVec_mulVec, mul_nonsing_inv _ (PosDef.isUnit_det (hp k)), one_mulVec, mulVec_smul] at this
      exact this
    have h2 := congrFun h1 i
    simp only [Pi.sub_apply, Pi.smul_apply, smul_eq_mul] at h2
    have h3 : (P k *ᵥ b) i = ∑ j, P k i j * b j := rfl
    rw [h3] at h2
    linarith
  have hs : Tendsto (fun k => ∑ j, P k i j * b j) atTop (𝓝 (∑ j, R i j * b j)) :=
    tendsto_finsetSum _ fun j _ => (hP i j).mul tendsto_const_nhds
  have := (tendsto_const_nhds (x := z i)).add (hut.mul hs)
  rw [zero_mul, add_zero] at this
  exact this.congr fun k => (e k).symm

/-- a heading between 0 and 2π survives conversion to a state and back -/
theorem toVec_ofVec_of_range {S : Type} [MotionModel S n] [MotionLaws S n] {v : Fin n → ℝ}
    (h : ∀ i : Fin n, i.1 = 3 → 0 ≤ v i ∧ v i < 2 * Real.pi) : MotionModel.toVec (MotionModel.ofVec v : S) = v := by
  funext i
  have h1 := MotionLaws.toVec_ofVec (S := S) v i
  by_cases hi : i.1 = 3
  · rw [if_pos hi] at h1
    exact h1.eq_of_range (MotionLaws.range _ i hi) (h i hi)
  · rwa [if_neg hi] at h1

end Mot
