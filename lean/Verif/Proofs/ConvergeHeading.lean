import Verif.Proofs.Converge
/-!
# Repeated fusing: headings
-/

namespace Mot

open Spec Matrix Filter Topology

/-- a disturbed contraction -/
theorem contract {x : ℕ → ℝ} {E : ℝ} (hE : 0 < E) (h : ∀ᶠ k in atTop, |x (k + 1)| ≤ 3 / 4 * |x k| + E) :
    ∀ᶠ k in atTop, |x k| ≤ 5 * E := by
  obtain ⟨K, hK⟩ := eventually_atTop.1 h
  have h1 : ∀ j, |x (K + j)| ≤ (3 / 4 : ℝ) ^ j * |x K| + 4 * E := by
    intro j
    induction j with
    | zero => simp; linarith
    | succ j ih =>
      have := hK (K + j) (by omega)
      rw [pow_succ]
      calc |x (K + j + 1)| ≤ 3 / 4 * |x (K + j)| + E := this
        _ ≤ 3 / 4 * ((3 / 4 : ℝ) ^ j * |x K| + 4 * E) + E := by linarith
        _ = _ := by ring
  have h2 : Tendsto (fun j => (3 / 4 : ℝ) ^ j * |x K|) atTop (𝓝 (0 * |x K|)) :=
    (tendsto_pow_atTop_nhds_zero_of_lt_one (by norm_num) (by norm_num)).mul tendsto_const_nhds
  rw [zero_mul] at h2
  obtain ⟨J, hJ⟩ := eventually_atTop.1 (h2.eventually (gt_mem_nhds hE))
  refine eventually_atTop.2 ⟨K + J, fun k hk => ?_⟩
  obtain ⟨j, rfl⟩ := Nat.exists_eq_add_of_le (show K ≤ k by omega)
  have := h1 j
  have := hJ j (by omega)
  linarith

theorem contract_zero {x s ε : ℕ → ℝ} (hs0 : ∀ k, 0 < s k) (hs : Tendsto s atTop (𝓝 (1 / 2)))
    (hε : Tendsto ε atTop (𝓝 0)) (h : ∀ᶠ k in atTop, x (k + 1) = s k * x k + ε k) : Tendsto x atTop (𝓝 0) := by
  rw [Metric.tendsto_atTop]
  intro r hr
  have hE : 0 < r / 10 := by linarith
  have h1 : ∀ᶠ k in atTop, |x (k + 1)| ≤ 3 / 4 * |x k| + r / 10 := by
    filter_upwards [h, hs.eventually (gt_mem_nhds (show (1 / 2 : ℝ) < 3 / 4 by norm_num)),
      hε.eventually (gt_mem_nhds hE), hε.eventually (lt_mem_nhds (neg_lt_zero.2 hE))] with k h1 h2 h3 h4
    rw [h1]
    have : |s k * x k| ≤ 3 / 4 * |x k| := by
      rw [abs_mul, abs_of_pos (hs0 k)]
      exact mul_le_mul_of_nonneg_right h2.le (abs_nonneg _)
    have h5 : |ε k| ≤ r / 10 := abs_le.2 ⟨h4.le, h3.le⟩
    exact (abs_add_le _ _).trans (add_le_add this h5)
  obtain ⟨N, hN⟩ := eventually_atTop.1 (contract hE h1)
  refine ⟨N, fun k hk => ?_⟩
  rw [Real.dist_eq, sub_zero]
  have := hN k hk
  linarith

theorem rotateHeading_bounds {a : ℝ} (ha : 0 ≤ a ∧ a < 2 * Real.pi) :
    -yawCut < rotateHeading a ∧ rotateHeading a ≤ yawCut := by
  obtain ⟨c1, c2⟩ := yawCut_bounds
  have hpi := Real.pi_gt_three
  unfold rotateHeading
  split
  · constructor <;> linarith
  · constructor <;> linarith

/-- one step, for averages that are not too near to the cut from above -/
theorem heading_step {g y : ℝ} (hg : 0 ≤ g ∧ g < 2 * Real.pi) (h : SameDir g y) (hy1 : yawCut - 2 * Real.pi < y)
    (hy2 : y ≤ yawCut) :
    rotateHeading g = y - if y < 0 then 2 * (yawCut - Real.pi) else 0 := by
  obtain ⟨c1, c2⟩ := yawCut_bounds
  have hpi := Real.pi_gt_three
  norm_num at c2
  by_cases h0 : y < 0
  · rw [if_pos h0]
    have h' : SameDir g (y + 2 * Real.pi) := h.trans ⟨-1, by push_cast; ring⟩
    have e := h'.eq_of_range hg ⟨by linarith, by linarith⟩
    rw [e]
    unfold rotateHeading
    rw [if_pos (by linarith)]
    ring
  · rw [if_neg h0]
    have e := h.eq_of_range hg ⟨by linarith, by linarith⟩
    rw [e]
    unfold rotateHeading
    rw [if_neg (by linarith)]
    ring

section
variable {g s : ℕ → ℝ} {b : ℝ} (hg : ∀ k, 0 ≤ g k ∧ g k < 2 * Real.pi) (hb : 0 ≤ b ∧ b < 2 * Real.pi)
  (hs0 : ∀ k, 0 < s k) (hs1 : ∀ k, s k < 1) (hs : Tendsto s atTop (𝓝 (1 / 2)))
  (h : ∀ k, SameDir (g (k + 1)) (s k * rotateHeading (g k) + (1 - s k) * rotateHeading b))
  (hcut : b ≤ yawCut ∨ yawCut + 1 / 10 ^ 11 ≤ b)
include hg hb hs0 hs1 hs h hcut

theorem heading_eventually : ∀ᶠ k in atTop, rotateHeading (g (k + 1)) - rotateHeading b =
    s k * (rotateHeading (g k) - rotateHeading b) -
      if s k * rotateHeading (g k) + (1 - s k) * rotateHeading b < 0 then 2 * (yawCut - Real.pi) else 0 := by
  obtain ⟨c1, c2⟩ := yawCut_bounds
  have hpi := Real.pi_gt_three
  norm_num at c2
  have hlow : -yawCut + 1 / 10 ^ 11 ≤ rotateHeading b := by
    unfold rotateHeading
    rcases hcut with h1 | h1
    · rw [if_neg (by linarith)]; norm_num; linarith [hb.1]
    · norm_num at h1
      rw [if_pos (by linarith)]; norm_num; linarith
  filter_upwards [hs.eventually (gt_mem_nhds (show (1 / 2 : ℝ) < 3 / 4 by norm_num))] with k h2
  have b1 := rotateHeading_bounds (hg k)
  have b2 := rotateHeading_bounds hb
  have p0 := hs0 k
  have p1 := hs1 k
  have y1 : yawCut - 2 * Real.pi < s k * rotateHeading (g k) + (1 - s k) * rotateHeading b := by
    have e1 : s k * (-yawCut) ≤ s k * rotateHeading (g k) := mul_le_mul_of_nonneg_left b1.1.le p0.le
    have e2 : (1 - s k) * (-yawCut + 1 / 10 ^ 11) ≤ (1 - s k) * rotateHeading b :=
      mul_le_mul_of_nonneg_left hlow (by linarith)
    norm_num at e2 ⊢
    nlinarith
  have y2 : s k * rotateHeading (g k) + (1 - s k) * rotateHeading b ≤ yawCut := by
    have e1 : s k * rotateHeading (g k) ≤ s k * yawCut := mul_le_mul_of_nonneg_left b1.2 p0.le
    have e2 : (1 - s k) * rotateHeading b ≤ (1 - s k) * yawCut := mul_le_mul_of_nonneg_left b2.2 (by linarith)
    linarith
  rw [heading_step (hg (k + 1)) (h k) y1 y2]
  ring

theorem heading_near : ∀ᶠ k in atTop, |rotateHeading (g k) - rotateHeading b| ≤ 1 / 10 ^ 11 := by
  obtain ⟨c1, c2⟩ := yawCut_bounds
  have hE : (0 : ℝ) < 2 / 10 ^ 12 := by norm_num
  have := contract (x := fun k => rotateHeading (g k) - rotateHeading b) hE (by
    filter_upwards [heading_eventually hg hb hs0 hs1 hs h hcut,
      hs.eventually (gt_mem_nhds (show (1 / 2 : ℝ) < 3 / 4 by norm_num))] with k h1 h2
    rw [h1]
    refine (abs_sub _ _).trans (add_le_add ?_ ?_)
    · rw [abs_mul, abs_of_pos (hs0 k)]
      exact mul_le_mul_of_nonneg_right h2.le (abs_nonneg _)
    · split
      · rw [abs_of_nonneg (by linarith)]; norm_num at c2 ⊢; linarith
      · rw [abs_zero]; exact hE.le)
  filter_upwards [this] with k hk
  norm_num at hk ⊢
  exact hk

theorem heading_tendsto_low (h1 : 1 / 10 ^ 11 < b) (h2 : b ≤ yawCut) : Tendsto g atTop (𝓝 b) := by
  have hrb : rotateHeading b = b := by unfold rotateHeading; rw [if_neg (by linarith)]
  have near := heading_near hg hb hs0 hs1 hs h hcut
  have t := contract_zero (x := fun k => rotateHeading (g k) - rotateHeading b) (ε := fun _ => 0) hs0 hs
    tendsto_const_nhds (by
      filter_upwards [heading_eventually hg hb hs0 hs1 hs h hcut, near] with k e1 e2
      rw [e1, if_neg, sub_zero, add_zero]
      rw [hrb] at e2 ⊢
      have := (abs_le.1 e2).1
      have p : 0 < rotateHeading (g k) := by linarith
      have := mul_pos (hs0 k) p
      have : 0 ≤ (1 - s k) * b := mul_nonneg (by linarith [hs1 k]) hb.1
      linarith)
  have t2 : Tendsto (fun k => rotateHeading (g k) - rotateHeading b + b) atTop (𝓝 (0 + b)) :=
    t.add tendsto_const_nhds
  rw [zero_add] at t2
  refine t2.congr' ?_
  filter_upwards [near] with k e2
  rw [hrb] at e2 ⊢
  have := (abs_le.1 e2).1
  have p : 0 < rotateHeading (g k) := by linarith
  have hgk := (hg k).2
  have c1 := yawCut_bounds.1
  unfold rotateHeading at p ⊢
  split at p
  · linarith
  · rw [if_neg (by assumption)]; ring

theorem heading_tendsto_high (h1 : yawCut + 1 / 10 ^ 11 ≤ b) (h2 : b < 2 * Real.pi - 1 / 10 ^ 11) :
    Tendsto g atTop (𝓝 (b - 4 * (yawCut - Real.pi))) := by
  obtain ⟨c1, c2⟩ := yawCut_bounds
  have hrb : rotateHeading b = b - 2 * yawCut := by
    unfold rotateHeading; rw [if_pos (by norm_num at h1; linarith)]
  have near := heading_near hg hb hs0 hs1 hs h hcut
  have hε : Tendsto (fun k => (1 - 2 * s k) * (2 * (yawCut - Real.pi))) atTop (𝓝 0) := by
    have : Tendsto (fun k => (1 - 2 * s k) * (2 * (yawCut - Real.pi))) atTop
        (𝓝 ((1 - 2 * (1 / 2)) * (2 * (yawCut - Real.pi)))) :=
      (tendsto_const_nhds.sub (tendsto_const_nhds.mul hs)).mul tendsto_const_nhds
    convert this using 2
    norm_num
  have neg : ∀ᶠ k in atTop, rotateHeading (g k) < 0 := by
    filter_upwards [near] with k e2
    rw [hrb] at e2
    have := (abs_le.1 e2).2
    norm_num at this h2
    linarith
  have t := contract_zero (x := fun k => rotateHeading (g k) - rotateHeading b + 4 * (yawCut - Real.pi)) hs0 hs hε (by
      filter_upwards [heading_eventually hg hb hs0 hs1 hs h hcut, neg] with k e1 e2
      rw [e1, if_pos]
      · ring
      · have := mul_pos_of_neg_of_neg (neg_lt_zero.2 (hs0 k)) e2
        have : (1 - s k) * rotateHeading b ≤ 0 :=
          mul_nonpos_of_nonneg_of_nonpos (by linarith [hs1 k]) (by rw [hrb]; norm_num at h2; linarith)
        linarith)
  have t2 : Tendsto (fun k => rotateHeading (g k) - rotateHeading b + 4 * (yawCut - Real.pi) +
      (b - 4 * (yawCut - Real.pi))) atTop (𝓝 (0 + (b - 4 * (yawCut - Real.pi)))) := t.add tendsto_const_nhds
  rw [zero_add] at t2
  refine t2.congr' ?_
  filter_upwards [neg] with k p
  rw [hrb]
  have hgk := (hg k).1
  unfold rotateHeading at p ⊢
  split at p
  · rw [if_pos (by assumption)]; ring
  · linarith

end

/-! ## Components that are uncorrelated with the rest -/

section
variable {n : ℕ}

theorem uncorrelated_inv {P : Matrix (Fin n) (Fin n) ℝ} (hP : P.PosDef) {k : Fin n}
    (h : Uncorrelated P k) : Uncorrelated P⁻¹ k := by
  intro j hj
  obtain ⟨-, h2⟩ := inv_row_of_decoupled hP h
  rw [h2]
  simp [hj]

theorem uncorrelated_info [NeZero n] {P Q : Matrix (Fin n) (Fin n) ℝ} (hP : P.PosDef) (hQ : Q.PosDef)
    {k : Fin n} (h : Uncorrelated P k) (h' : Uncorrelated Q k) : Uncorrelated (fuseInfo P Q)⁻¹ k := by
  refine uncorrelated_inv (fuseInfo_posDef hP hQ) fun j hj => ?_
  show fuseWeight P Q * P⁻¹ k j + (1 - fuseWeight P Q) * Q⁻¹ k j = 0
  rw [uncorrelated_inv hP h j hj, uncorrelated_inv hQ h' j hj]
  ring

/-- `fused_component` with the coefficient -/
theorem fused_component_coeff [NeZero n] {P Q : Matrix (Fin n) (Fin n) ℝ} (hP : P.PosDef) (hQ : Q.PosDef)
    {k : Fin n} (hPk : Uncorrelated P k) (hQk : Uncorrelated Q k) :
    0 < fuseWeight P Q * (P k k)⁻¹ / (fuseWeight P Q * (P k k)⁻¹ + (1 - fuseWeight P Q) * (Q k k)⁻¹) ∧
      fuseWeight P Q * (P k k)⁻¹ / (fuseWeight P Q * (P k k)⁻¹ + (1 - fuseWeight P Q) * (Q k k)⁻¹) < 1 ∧
      ∀ m₁ m₂ : Fin n → ℝ,
      ((fuseInfo P Q)⁻¹ *ᵥ (fuseWeight P Q • (P⁻¹ *ᵥ m₁) + (1 - fuseWeight P Q) • (Q⁻¹ *ᵥ m₂))) k =
        fuseWeight P Q * (P k k)⁻¹ / (fuseWeight P Q * (P k k)⁻¹ + (1 - fuseWeight P Q) * (Q k k)⁻¹) * m₁ k +
        (1 - fuseWeight P Q * (P k k)⁻¹ / (fuseWeight P Q * (P k k)⁻¹ + (1 - fuseWeight P Q) * (Q k k)⁻¹)) * m₂ k := by
  set s := fuseWeight P Q * (P k k)⁻¹ / (fuseWeight P Q * (P k k)⁻¹ + (1 - fuseWeight P Q) * (Q k k)⁻¹) with hsdef
  have hp : 0 < P k k := hP.diag_pos
  have hq : 0 < Q k k := hQ.diag_pos
  obtain ⟨-, w0, w1⟩ := fuseWeight_spec hP hQ
  have ha : 0 < fuseWeight P Q * (P k k)⁻¹ := mul_pos w0 (inv_pos.2 hp)
  have hb : 0 < (1 - fuseWeight P Q) * (Q k k)⁻¹ := mul_pos (by linarith) (inv_pos.2 hq)
  have i1 := (inv_row_of_decoupled hP hPk).2
  have i2 := (inv_row_of_decoupled hQ hQk).2
  have i3 := (inv_row_of_decoupled (fuseInfo_posDef hP hQ) (k := k) (fun j hj => by
    show fuseWeight P Q * P⁻¹ k j + (1 - fuseWeight P Q) * Q⁻¹ k j = 0
    rw [uncorrelated_inv hP hPk j hj, uncorrelated_inv hQ hQk j hj]; ring)).2
  have hd : fuseInfo P Q k k = fuseWeight P Q * (P k k)⁻¹ + (1 - fuseWeight P Q) * (Q k k)⁻¹ := by
    show fuseWeight P Q * P⁻¹ k k + (1 - fuseWeight P Q) * Q⁻¹ k k = _
    rw [i1, i2]
    simp
  refine ⟨div_pos ha (add_pos ha hb), by rw [hsdef, div_lt_one (add_pos ha hb)]; linarith, fun m₁ m₂ => ?_⟩
  show ((fuseInfo P Q)⁻¹ k) ⬝ᵥ _ = _
  rw [i3, smul_dotProduct, single_one_dotProduct, hd]
  show _ • (fuseWeight P Q * (P⁻¹ k ⬝ᵥ m₁) + (1 - fuseWeight P Q) * (Q⁻¹ k ⬝ᵥ m₂)) = _
  rw [i1, i2, smul_dotProduct, smul_dotProduct, single_one_dotProduct, single_one_dotProduct, hsdef]
  have hab := (add_pos ha hb).ne'
  simp only [smul_eq_mul]
  rw [← mul_assoc (fuseWeight P Q), ← mul_assoc (1 - fuseWeight P Q)]
  generalize fuseWeight P Q * (P k k)⁻¹ = a at hab ⊢
  generalize (1 - fuseWeight P Q) * (Q k k)⁻¹ = b at hab ⊢
  field_simp
  ring

/-- the coefficient is near one half if the covariances are near each other -/
theorem tendsto_coeff {P : ℕ → Matrix (Fin n) (Fin n) ℝ} {R : Matrix (Fin n) (Fin n) ℝ} (hR : R.PosDef) {k : Fin n}
    (hP : Tendsto (fun j => P j k k) atTop (𝓝 (R k k))) {w : ℕ → ℝ} (hw : Tendsto w atTop (𝓝 (1 / 2))) :
    Tendsto (fun j => w j * (P j k k)⁻¹ / (w j * (P j k k)⁻¹ + (1 - w j) * (R k k)⁻¹)) atTop (𝓝 (1 / 2)) := by
  have hr : 0 < R k k := hR.diag_pos
  have hi := hP.inv₀ hr.ne'
  have ha := hw.mul hi
  have hb := ((tendsto_const_nhds (x := (1 : ℝ))).sub hw).mul (tendsto_const_nhds (x := (R k k)⁻¹))
  have hri : 0 < (R k k)⁻¹ := inv_pos.2 hr
  have e : (1 / 2 * (R k k)⁻¹) / (1 / 2 * (R k k)⁻¹ + (1 - 1 / 2) * (R k k)⁻¹) = 1 / 2 := by
    generalize (R k k)⁻¹ = r at hri ⊢
    field_simp
    norm_num
  have := ha.div (ha.add hb) (by positivity)
  rw [e] at this
  exact this

theorem mulVec_update_zero {B : Matrix (Fin n) (Fin n) ℝ} (hs : B.IsHermitian) {k : Fin n} (h : Uncorrelated B k)
    (m : Fin n → ℝ) : B *ᵥ Function.update m k 0 = Function.update (B *ᵥ m) k 0 := by
  funext i
  by_cases hi : i = k
  · subst hi
    rw [Function.update_self]
    show ∑ j, B i j * Function.update m i 0 j = 0
    refine Finset.sum_eq_zero fun j _ => ?_
    by_cases hj : j = i
    · subst hj; rw [Function.update_self, mul_zero]
    · rw [h j hj, zero_mul]
  · rw [Function.update_of_ne hi]
    show ∑ j, B i j * Function.update m k 0 j = ∑ j, B i j * m j
    refine Finset.sum_congr rfl fun j _ => ?_
    by_cases hj : j = k
    · subst hj
      have : B i j = B j i := by
        have := congrFun (congrFun hs j) i
        simpa using this
      rw [this, h i hi, zero_mul, zero_mul]
    · rw [Function.update_of_ne hj]

/-- the other components are fused without regard to that component -/
theorem fused_other [NeZero n] {P Q : Matrix (Fin n) (Fin n) ℝ} (hP : P.PosDef) (hQ : Q.PosDef)
    {k : Fin n} (hPk : Uncorrelated P k) (hQk : Uncorrelated Q k) (m₁ m₂ : Fin n → ℝ) :
    (fuseInfo P Q)⁻¹ *ᵥ (fuseWeight P Q • (P⁻¹ *ᵥ Function.update m₁ k 0) +
        (1 - fuseWeight P Q) • (Q⁻¹ *ᵥ Function.update m₂ k 0)) =
      Function.update ((fuseInfo P Q)⁻¹ *ᵥ (fuseWeight P Q • (P⁻¹ *ᵥ m₁) +
        (1 - fuseWeight P Q) • (Q⁻¹ *ᵥ m₂))) k 0 := by
  rw [mulVec_update_zero hP.inv.isHermitian (uncorrelated_inv hP hPk),
    mulVec_update_zero hQ.inv.isHermitian (uncorrelated_inv hQ hQk),
    ← mulVec_update_zero (fuseInfo_posDef hP hQ).inv.isHermitian (uncorrelated_info hP hQ hPk hQk)]
  congr 1
  funext i
  by_cases hi : i = k
  · subst hi; simp
  · simp [Function.update_of_ne hi]

end

end Mot
