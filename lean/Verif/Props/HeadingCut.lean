import Verif.Proofs.HeadingCut
import Verif.Props.LinearPart
/-!
# C96: by how much prediction turns the heading
-/

namespace Mot.Props

open Matrix Spec

/-- A sigma point heads at most three radians away from the object if the predicted heading
varies little enough. -/
theorem spread_le {n : ℕ} {L P A : Matrix (Fin n) (Fin n) ℝ} (hL : L * Lᵀ = P) {N : ℝ}
    (hN : 0 ≤ N) (i : Fin n) (h : N * (A * P * Aᵀ) i i ≤ 9) (j : Fin n) :
    |√N * (A *ᵥ L.col j) i| ≤ 3 := by
  have hAL : A * L * (A * L)ᵀ = A * P * Aᵀ := by
    rw [transpose_mul, Matrix.mul_assoc, ← Matrix.mul_assoc L, hL, ← Matrix.mul_assoc]
  have := cholesky_entry_le hAL i j
  rw [abs_mul, abs_of_nonneg (Real.sqrt_nonneg _)]
  refine (mul_le_mul_of_nonneg_left (show |(A *ᵥ L.col j) i| ≤ _ from this)
    (Real.sqrt_nonneg _)).trans ?_
  rw [← Real.sqrt_mul hN, Real.sqrt_le_left (by norm_num)]
  norm_num
  exact h

/-- C96 for CTRV objects.  `ψ` is the heading expected from `yaw + yaw rate · duration`, `N`
is α²(5+β), and column `j` of the Cholesky factor displaces the heading by `√N·(L₃ⱼ + dt·L₄ⱼ)`,
at most three radians.  The predicted heading is `ψ` turned away from the cut at 3.14159265359,
by π/N for every column that reaches over it, up to 2·10⁻¹². -/
theorem C96_heading_ctrv {chol : Chol} (hchol : IsLlt chol) {o : DynObj CtrvState CtrvCov}
    (hP : o.covariance.PosDef) {α β κ time dt N ψ : ℝ} (hdt : dt = time - o.timestamp)
    (hNd : N = α ^ 2 * (5 + β)) (hN : 5 ≤ N)
    (hψ : SameDir ψ (o.state.yaw.getAngle + dt * o.state.yawRate))
    (h0 : 0 ≤ ψ) (h1 : ψ < 2 * Real.pi)
    (hv : N * (o.covariance 3 3 + 2 * dt * o.covariance 3 4 + dt ^ 2 * o.covariance 4 4) ≤ 9) :
    ∃ p, predict o time (unscentedTransform chol α β κ) = .ok p ∧
      ∃ ε, |ε| ≤ 2 / 10 ^ 12 ∧ SameDir p.state.yaw.getAngle
        (ψ + (if ψ ≤ 3.14159265359 then -1 else 1) * (Real.pi * crossings ψ (fun j =>
          √N * (chol 5 o.covariance 3 j + dt * chol 5 o.covariance 4 j)) / N) + ε) := by
  have hch := hchol 5 _ hP
  have sym : ∀ i j, o.covariance i j = o.covariance j i := fun i j => hP.1.apply j i
  have hvar : (ctrvStep dt * o.covariance * (ctrvStep dt)ᵀ) 3 3 =
      o.covariance 3 3 + 2 * dt * o.covariance 3 4 + dt ^ 2 * o.covariance 4 4 := by
    simp only [sandwich_apply, ctrvStep_mulVec]
    show o.covariance 3 3 + dt * o.covariance 4 3 + dt * (o.covariance 3 4 + dt * o.covariance 4 4) = _
    rw [sym 4 3]; ring
  rw [← hvar] at hv
  have hsp := spread_le hch.factor (show 0 ≤ N by linarith) 3 hv
  simp only [ctrvStep_mulVec] at hsp
  obtain ⟨x, C, hx, ε, hε, hd⟩ := ukfPredict_heading chol o.state o.covariance (α := α) (β := κ)
    (κ := β) (dt := dt) (ψ := ψ) (by push_cast; rw [← hNd]; exact hN) 3 4 rfl
    (fun p z hz => by
      have d3 : SameDir p.yaw.getAngle (z 3) := hz 3
      have e4 : p.yawRate = z 4 := hz 4
      have := next_yaw_sameDir p.yaw p.yawRate dt d3
      rw [e4] at this
      show SameDir (p.yaw.add (Angle.ofRad (p.yawRate * dt))).getAngle _
      rw [e4]
      exact this) h0 h1 hψ (by push_cast; rw [← hNd]; exact hsp)
  push_cast at hd
  rw [← hNd, yawCut_lit] at hd
  subst hdt
  refine ⟨_, (C37_swapped chol α β κ time o).2 _ _ hx, ε, hε, ?_⟩
  exact (Angle.sameDir_getAngle (x 3)).trans hd

/-- C96 for CTRA objects, with `N` = α²(6+β). -/
theorem C96_heading_ctra {chol : Chol} (hchol : IsLlt chol) {o : DynObj CtraState CtraCov}
    (hP : o.covariance.PosDef) {α β κ time dt N ψ : ℝ} (hdt : dt = time - o.timestamp)
    (hNd : N = α ^ 2 * (6 + β)) (hN : 6 ≤ N)
    (hψ : SameDir ψ (o.state.yaw.getAngle + dt * o.state.yawRate))
    (h0 : 0 ≤ ψ) (h1 : ψ < 2 * Real.pi)
    (hv : N * (o.covariance 3 3 + 2 * dt * o.covariance 3 4 + dt ^ 2 * o.covariance 4 4) ≤ 9) :
    ∃ p, predict o time (unscentedTransform chol α β κ) = .ok p ∧
      ∃ ε, |ε| ≤ 2 / 10 ^ 12 ∧ SameDir p.state.yaw.getAngle
        (ψ + (if ψ ≤ 3.14159265359 then -1 else 1) * (Real.pi * crossings ψ (fun j =>
          √N * (chol 6 o.covariance 3 j + dt * chol 6 o.covariance 4 j)) / N) + ε) := by
  have hch := hchol 6 _ hP
  have sym : ∀ i j, o.covariance i j = o.covariance j i := fun i j => hP.1.apply j i
  have hvar : (ctraStep dt * o.covariance * (ctraStep dt)ᵀ) 3 3 =
      o.covariance 3 3 + 2 * dt * o.covariance 3 4 + dt ^ 2 * o.covariance 4 4 := by
    simp only [sandwich_apply, ctraStep_mulVec]
    show o.covariance 3 3 + dt * o.covariance 4 3 + dt * (o.covariance 3 4 + dt * o.covariance 4 4) = _
    rw [sym 4 3]; ring
  rw [← hvar] at hv
  have hsp := spread_le hch.factor (show 0 ≤ N by linarith) 3 hv
  simp only [ctraStep_mulVec] at hsp
  obtain ⟨x, C, hx, ε, hε, hd⟩ := ukfPredict_heading chol o.state o.covariance (α := α) (β := κ)
    (κ := β) (dt := dt) (ψ := ψ) (by push_cast; rw [← hNd]; exact hN) 3 4 rfl
    (fun p z hz => by
      have d3 : SameDir p.yaw.getAngle (z 3) := hz 3
      have e4 : p.yawRate = z 4 := hz 4
      have := next_yaw_sameDir p.yaw p.yawRate dt d3
      rw [e4] at this
      show SameDir (p.yaw.add (Angle.ofRad (p.yawRate * dt))).getAngle _
      rw [e4]
      exact this) h0 h1 hψ (by push_cast; rw [← hNd]; exact hsp)
  push_cast at hd
  rw [← hNd, yawCut_lit] at hd
  subst hdt
  refine ⟨_, (C37_swapped chol α β κ time o).2 _ _ hx, ε, hε, ?_⟩
  exact (Angle.sameDir_getAngle (x 3)).trans hd

/-- a heading turned by π/N, 2π/N, …, π at most is not near the one turned -/
theorem turned_far {m n : ℕ} {N σ θ ψ ε ε' : ℝ} (hσ : σ = -1 ∨ σ = 1) (hm : 0 < m) (hmn : m ≤ n)
    (hN : (n : ℝ) ≤ N) (he' : |ε'| ≤ 2 / 10 ^ 12)
    (h : SameDir θ (ψ + σ * (Real.pi * m / N) + ε')) (he : |ε| < Real.pi / N - 2 / 10 ^ 12) :
    ¬ SameDir θ (ψ + ε) := by
  intro h'
  have hm1 : (1 : ℝ) ≤ m := by exact_mod_cast hm
  have hmn' : (m : ℝ) ≤ n := by exact_mod_cast hmn
  have hN0 : 0 < N := by linarith
  have hp := Real.pi_pos
  obtain ⟨k, hk⟩ := h'.symm.trans h
  set b := Real.pi * m / N with hb
  have b1 : Real.pi / N ≤ b := by
    rw [hb]; gcongr; nlinarith
  have b2 : b ≤ Real.pi := by
    rw [hb, div_le_iff₀ hN0]
    exact mul_le_mul_of_nonneg_left (by linarith) hp.le
  have b3 : Real.pi / N ≤ Real.pi := by
    rw [div_le_iff₀ hN0]; nlinarith
  obtain ⟨p1, p2⟩ := abs_le.1 he'
  obtain ⟨q1, q2⟩ := abs_lt.1 he
  have key : ∀ j : ℤ, (j : ℝ) * (2 * Real.pi) ≠ 0 → |(j : ℝ) * (2 * Real.pi)| < 2 * Real.pi → False := by
    intro j hj0 hj
    rw [abs_mul, abs_of_pos (show 0 < 2 * Real.pi by linarith)] at hj
    have h1 : |(j : ℝ)| < 1 := by nlinarith
    have h2 : |j| < 1 := by exact_mod_cast h1
    rw [Int.abs_lt_one_iff] at h2
    rw [h2] at hj0
    simp at hj0
  refine key k ?_ ?_
  · rcases hσ with rfl | rfl <;> intro h0 <;> linarith
  · rw [abs_lt]
    rcases hσ with rfl | rfl <;> constructor <;> linarith

theorem crossings_le {n : ℕ} (ψ : ℝ) (d : Fin n → ℝ) : crossings ψ d ≤ n := by
  unfold crossings
  exact (Finset.card_le_univ _).trans_eq (Fintype.card_fin n)

/-- C96: the predicted heading of a CTRV object is the expected one (up to 2·10⁻¹²) exactly if
no column reaches over the cut; otherwise it is wrong by π/N at least. -/
theorem C96_exact_iff_ctrv {chol : Chol} (hchol : IsLlt chol) {o : DynObj CtrvState CtrvCov}
    (hP : o.covariance.PosDef) {α β κ time dt N ψ : ℝ} (hdt : dt = time - o.timestamp)
    (hNd : N = α ^ 2 * (5 + β)) (hN : 5 ≤ N)
    (hψ : SameDir ψ (o.state.yaw.getAngle + dt * o.state.yawRate))
    (h0 : 0 ≤ ψ) (h1 : ψ < 2 * Real.pi)
    (hv : N * (o.covariance 3 3 + 2 * dt * o.covariance 3 4 + dt ^ 2 * o.covariance 4 4) ≤ 9)
    {p : DynObj CtrvState CtrvCov} (hp : predict o time (unscentedTransform chol α β κ) = .ok p)
    {δ : ℝ} (hδ : 2 / 10 ^ 12 ≤ δ) (hδ' : δ < Real.pi / N - 2 / 10 ^ 12) :
    (∃ ε, |ε| ≤ δ ∧ SameDir p.state.yaw.getAngle (ψ + ε)) ↔
      ∀ j, (ψ ≤ 3.14159265359 → ψ + |√N * (chol 5 o.covariance 3 j + dt * chol 5 o.covariance 4 j)|
          ≤ 3.14159265359) ∧
        (3.14159265359 < ψ →
          3.14159265359 < ψ - |√N * (chol 5 o.covariance 3 j + dt * chol 5 o.covariance 4 j)|) := by
  obtain ⟨p', hp', ε', he', hd⟩ := C96_heading_ctrv hchol hP (κ := κ) hdt hNd hN hψ h0 h1 hv
  rw [hp'] at hp
  cases hp
  have hcross : ∀ d : Fin 5 → ℝ, crossings ψ d = 0 ↔
      ∀ j, (ψ ≤ 3.14159265359 → ψ + |d j| ≤ 3.14159265359) ∧
        (3.14159265359 < ψ → 3.14159265359 < ψ - |d j|) := by
    intro d
    unfold crossings
    rw [Finset.card_eq_zero, Finset.filter_eq_empty_iff]
    constructor
    · intro h j
      have := h (Finset.mem_univ j)
      push Not at this
      exact this
    · intro h j _
      push Not
      exact h j
  rw [← hcross]
  constructor
  · rintro ⟨ε, he, hs⟩
    by_contra hne
    refine turned_far (m := crossings ψ _) (n := 5) (N := N) ?_ (Nat.pos_of_ne_zero hne)
      (crossings_le _ _) (by exact_mod_cast hN) he' hd (by linarith [he]) hs
    split
    · exact .inl rfl
    · exact .inr rfl
  · intro h
    rw [h] at hd
    refine ⟨ε', he'.trans hδ, ?_⟩
    have e : ψ + (if ψ ≤ 3.14159265359 then -1 else 1) * (Real.pi * ((0 : ℕ) : ℝ) / N) + ε' =
        ψ + ε' := by rw [Nat.cast_zero]; ring
    rw [e] at hd
    exact hd

/-- C96: the predicted heading of a CTRA object is the expected one (up to 2·10⁻¹²) exactly if
no column reaches over the cut; otherwise it is wrong by π/N at least. -/
theorem C96_exact_iff_ctra {chol : Chol} (hchol : IsLlt chol) {o : DynObj CtraState CtraCov}
    (hP : o.covariance.PosDef) {α β κ time dt N ψ : ℝ} (hdt : dt = time - o.timestamp)
    (hNd : N = α ^ 2 * (6 + β)) (hN : 6 ≤ N)
    (hψ : SameDir ψ (o.state.yaw.getAngle + dt * o.state.yawRate))
    (h0 : 0 ≤ ψ) (h1 : ψ < 2 * Real.pi)
    (hv : N * (o.covariance 3 3 + 2 * dt * o.covariance 3 4 + dt ^ 2 * o.covariance 4 4) ≤ 9)
    {p : DynObj CtraState CtraCov} (hp : predict o time (unscentedTransform chol α β κ) = .ok p)
    {δ : ℝ} (hδ : 2 / 10 ^ 12 ≤ δ) (hδ' : δ < Real.pi / N - 2 / 10 ^ 12) :
    (∃ ε, |ε| ≤ δ ∧ SameDir p.state.yaw.getAngle (ψ + ε)) ↔
      ∀ j, (ψ ≤ 3.14159265359 → ψ + |√N * (chol 6 o.covariance 3 j + dt * chol 6 o.covariance 4 j)|
          ≤ 3.14159265359) ∧
        (3.14159265359 < ψ →
          3.14159265359 < ψ - |√N * (chol 6 o.covariance 3 j + dt * chol 6 o.covariance 4 j)|) := by
  obtain ⟨p', hp', ε', he', hd⟩ := C96_heading_ctra hchol hP (κ := κ) hdt hNd hN hψ h0 h1 hv
  rw [hp'] at hp
  cases hp
  have hcross : ∀ d : Fin 6 → ℝ, crossings ψ d = 0 ↔
      ∀ j, (ψ ≤ 3.14159265359 → ψ + |d j| ≤ 3.14159265359) ∧
        (3.14159265359 < ψ → 3.14159265359 < ψ - |d j|) := by
    intro d
    unfold crossings
    rw [Finset.card_eq_zero, Finset.filter_eq_empty_iff]
    constructor
    · intro h j
      have := h (Finset.mem_univ j)
      push Not at this
      exact this
    · intro h j _
      push Not
      exact h j
  rw [← hcross]
  constructor
  · rintro ⟨ε, he, hs⟩
    by_contra hne
    refine turned_far (m := crossings ψ _) (n := 6) (N := N) ?_ (Nat.pos_of_ne_zero hne)
      (crossings_le _ _) (by exact_mod_cast hN) he' hd (by linarith [he]) hs
    split
    · exact .inl rfl
    · exact .inr rfl
  · intro h
    rw [h] at hd
    refine ⟨ε', he'.trans hδ, ?_⟩
    have e : ψ + (if ψ ≤ 3.14159265359 then -1 else 1) * (Real.pi * ((0 : ℕ) : ℝ) / N) + ε' =
        ψ + ε' := by rw [Nat.cast_zero]; ring
    rw [e] at hd
    exact hd

/-- An object heading π with unit covariance, predicted to its own time: one column reaches
over the cut, so the heading is turned by π/7. -/
example {chol : Chol} (hchol : IsLlt chol) :
    ∃ p, predict (⟨0, westState, 1, ⟨[1]⟩, .unknown⟩ : DynObj CtrvState CtrvCov) 0 (defaultUt chol) =
        .ok p ∧
      ∃ ε, |ε| ≤ 2 / 10 ^ 12 ∧ SameDir p.state.yaw.getAngle (Real.pi - Real.pi / 7 + ε) := by
  have hp := Real.pi_pos
  obtain ⟨c1, -⟩ := yawCut_bounds
  rw [yawCut_lit] at c1
  have hL : chol 5 1 = 1 := by
    have := hchol.diagonal (d := fun _ : Fin 5 => 1) fun _ => one_pos
    rw [diagonal_one] at this
    rw [this, Real.sqrt_one, diagonal_one]
  obtain ⟨p, h, ε, he, hd⟩ := C96_heading_ctrv hchol (α := 1) (β := 2) (κ := 1) (time := 0) (dt := 0)
    (N := 7) (ψ := Real.pi) (o := ⟨0, westState, 1, ⟨[1]⟩, .unknown⟩) PosDef.one (by norm_num)
    (by norm_num) (by norm_num)
    (by
      show SameDir _ ((Angle.ofRad Real.pi).getAngle + 0 * 0)
      rw [west_yaw, mul_zero, add_zero]; exact SameDir.refl _) hp.le (by linarith)
    (by simp; norm_num)
  refine ⟨p, h, ε, he, ?_⟩
  have hcr : crossings Real.pi (fun j => √7 * ((1 : CtrvCov) 3 j + 0 * (1 : CtrvCov) 4 j)) = 1 := by
    unfold crossings
    rw [Finset.card_eq_one]
    refine ⟨3, ?_⟩
    ext j
    simp only [Finset.mem_filter, Finset.mem_univ, true_and, Finset.mem_singleton, zero_mul, add_zero]
    constructor
    · intro hj
      by_contra hne
      rw [Matrix.one_apply_ne (Ne.symm hne), mul_zero, abs_zero] at hj
      rcases hj with hj | hj <;> linarith [hj.1, hj.2]
    · rintro rfl
      refine .inl ⟨c1.le, ?_⟩
      rw [Matrix.one_apply_eq, mul_one, abs_of_nonneg (Real.sqrt_nonneg _)]
      have : (1 : ℝ) ≤ √7 := by rw [Real.one_le_sqrt]; norm_num
      have := Real.pi_gt_three
      linarith
  rw [hL, hcr, if_pos c1.le] at hd
  have e : Real.pi + -1 * (Real.pi * ((1 : ℕ) : ℝ) / 7) + ε = Real.pi - Real.pi / 7 + ε := by
    push_cast; ring
  rw [e] at hd
  exact hd

/-- C41, what holds whatever the heading: predicting a CTRV object to its own time changes no
variable but the heading, and no entry of the covariance outside the row and the column of
the heading.

Missing: the heading, its variance and its correlations, which change if the heading is near
3.14159265359 (`C41_heading_iff_ctrv_partial`). -/
theorem C41_others_ctrv_partial {chol : Chol} (hchol : IsLlt chol) {o : DynObj CtrvState CtrvCov}
    (hP : o.covariance.PosDef) {α β κ : ℝ} (hN : 0 < α ^ 2 * (5 + β)) :
    ∃ p, predict o o.timestamp (unscentedTransform chol α β κ) = .ok p ∧
      p.timestamp = o.timestamp ∧ p.uuid = o.uuid ∧ p.semanticClass = o.semanticClass ∧
      p.state.x = o.state.x ∧ p.state.y = o.state.y ∧ p.state.v = o.state.v ∧
      p.state.yawRate = o.state.yawRate ∧
      ∀ i j, i ≠ 3 → j ≠ 3 → p.covariance i j = o.covariance i j := by
  obtain ⟨x, P', h1, h2, h3⟩ := ukfPredict_affine hchol o.state hP (α := α) (β := κ) (κ := β)
    (dt := 0) (by exact_mod_cast hN) (fun i => i ≠ 3) 1 0 (by
      intro q z hz _ i hi
      have hne : i.1 ≠ 3 := fun h => hi (Fin.ext h)
      rw [one_mulVec, add_zero, rotateYaw_of_ne hne]
      have hzi := hz i
      rw [if_neg hne] at hzi
      rw [← hzi]
      have hx : (q.next 0).x = q.x ∧ (q.next 0).y = q.y := by
        by_cases h : unitsEq q.yawRate 0
        · obtain ⟨h1, h2⟩ := CtrvState.next_straight h 0
          exact ⟨by rw [h1]; ring, by rw [h2]; ring⟩
        · obtain ⟨h1, h2⟩ := CtrvState.next_turn h 0
          exact ⟨by rw [h1]; simp, by rw [h2]; simp⟩
      fin_cases i
      · exact hx.1
      · exact hx.2
      · rfl
      · exact absurd rfl hi
      · rfl)
  simp only [one_mulVec, add_zero, one_mul, transpose_one, mul_one] at h2 h3
  refine ⟨_, (C37_swapped chol α β κ o.timestamp o).2 (MotionModel.ofVec x) P'
    (by rw [sub_self]; exact h1), rfl, rfl, rfl,
    h2 0 (by decide), h2 1 (by decide), h2 2 (by decide), h2 4 (by decide), h3⟩

/-- C41, the heading of a CTRV object: predicting the object to its own time with
`UnscentedTransform{α, β, κ}` leaves the heading alone (up to 2·10⁻¹²) exactly if no sigma
point lies on the other side of 3.14159265359; otherwise the heading is turned by π/(α²(5+β))
at least.

Missing: spreads of more than three radians and α²(5+β) < 5. -/
theorem C41_heading_iff_ctrv_partial {chol : Chol} (hchol : IsLlt chol) {o p : DynObj CtrvState CtrvCov}
    (hP : o.covariance.PosDef) {α β κ N : ℝ} (hNd : N = α ^ 2 * (5 + β)) (hN : 5 ≤ N)
    (hv : N * o.covariance 3 3 ≤ 9)
    (hp : predict o o.timestamp (unscentedTransform chol α β κ) = .ok p)
    {δ : ℝ} (hδ : 2 / 10 ^ 12 ≤ δ) (hδ' : δ < Real.pi / N - 2 / 10 ^ 12) :
    (∃ ε, |ε| ≤ δ ∧ SameDir p.state.yaw.getAngle (o.state.yaw.getAngle + ε)) ↔
      ∀ j, (o.state.yaw.getAngle ≤ 3.14159265359 →
          o.state.yaw.getAngle + √N * |chol 5 o.covariance 3 j| ≤ 3.14159265359) ∧
        (3.14159265359 < o.state.yaw.getAngle →
          3.14159265359 < o.state.yaw.getAngle - √N * |chol 5 o.covariance 3 j|) := by
  obtain ⟨r0, r1⟩ := Angle.getAngle_range o.state.yaw
  rw [C96_exact_iff_ctrv hchol hP (dt := 0) (sub_self _).symm hNd hN
    (by rw [zero_mul, add_zero]; exact SameDir.refl _) r0 r1
    (by rw [mul_zero, zero_mul, zero_pow two_ne_zero, zero_mul, add_zero, add_zero]; exact hv)
    hp hδ hδ']
  simp only [zero_mul, add_zero, abs_mul, abs_of_nonneg (Real.sqrt_nonneg N)]

/-- C41, what holds whatever the heading: predicting a CTRA object to its own time changes no
variable but the heading, and no entry of the covariance outside the row and the column of
the heading.

Missing: the heading, its variance and its correlations, which change if the heading is near
3.14159265359 (`C41_heading_iff_ctra_partial`). -/
theorem C41_others_ctra_partial {chol : Chol} (hchol : IsLlt chol) {o : DynObj CtraState CtraCov}
    (hP : o.covariance.PosDef) {α β κ : ℝ} (hN : 0 < α ^ 2 * (6 + β)) :
    ∃ p, predict o o.timestamp (unscentedTransform chol α β κ) = .ok p ∧
      p.timestamp = o.timestamp ∧ p.uuid = o.uuid ∧ p.semanticClass = o.semanticClass ∧
      p.state.x = o.state.x ∧ p.state.y = o.state.y ∧ p.state.v = o.state.v ∧
      p.state.yawRate = o.state.yawRate ∧ p.state.a = o.state.a ∧
      ∀ i j, i ≠ 3 → j ≠ 3 → p.covariance i j = o.covariance i j := by
  obtain ⟨x, P', h1, h2, h3⟩ := ukfPredict_affine hchol o.state hP (α := α) (β := κ) (κ := β)
    (dt := 0) (by exact_mod_cast hN) (fun i => i ≠ 3) 1 0 (by
      intro q z hz _ i hi
      have hne : i.1 ≠ 3 := fun h => hi (Fin.ext h)
      rw [one_mulVec, add_zero, rotateYaw_of_ne hne]
      have hzi := hz i
      rw [if_neg hne] at hzi
      rw [← hzi]
      have hx : (q.next 0).x = q.x ∧ (q.next 0).y = q.y := by
        by_cases h : unitsEq q.yawRate 0
        · obtain ⟨h1, h2⟩ := CtraState.next_straight h 0
          exact ⟨by rw [h1]; ring, by rw [h2]; ring⟩
        · obtain ⟨h1, h2⟩ := CtraState.next_turn h 0
          exact ⟨by rw [h1]; simp, by rw [h2]; simp⟩
      fin_cases i
      · exact hx.1
      · exact hx.2
      · show q.v + q.a * 0 = q.v
        rw [mul_zero, add_zero]
      · exact absurd rfl hi
      · rfl
      · rfl)
  simp only [one_mulVec, add_zero, one_mul, transpose_one, mul_one] at h2 h3
  refine ⟨_, (C37_swapped chol α β κ o.timestamp o).2 (MotionModel.ofVec x) P'
    (by rw [sub_self]; exact h1), rfl, rfl, rfl,
    h2 0 (by decide), h2 1 (by decide), h2 2 (by decide), h2 4 (by decide), h2 5 (by decide), h3⟩

/-- C41, the heading of a CTRA object: predicting the object to its own time with
`UnscentedTransform{α, β, κ}` leaves the heading alone (up to 2·10⁻¹²) exactly if no sigma
point lies on the other side of 3.14159265359; otherwise the heading is turned by π/(α²(6+β))
at least.

Missing: spreads of more than three radians and α²(6+β) < 6. -/
theorem C41_heading_iff_ctra_partial {chol : Chol} (hchol : IsLlt chol) {o p : DynObj CtraState CtraCov}
    (hP : o.covariance.PosDef) {α β κ N : ℝ} (hNd : N = α ^ 2 * (6 + β)) (hN : 6 ≤ N)
    (hv : N * o.covariance 3 3 ≤ 9)
    (hp : predict o o.timestamp (unscentedTransform chol α β κ) = .ok p)
    {δ : ℝ} (hδ : 2 / 10 ^ 12 ≤ δ) (hδ' : δ < Real.pi / N - 2 / 10 ^ 12) :
    (∃ ε, |ε| ≤ δ ∧ SameDir p.state.yaw.getAngle (o.state.yaw.getAngle + ε)) ↔
      ∀ j, (o.state.yaw.getAngle ≤ 3.14159265359 →
          o.state.yaw.getAngle + √N * |chol 6 o.covariance 3 j| ≤ 3.14159265359) ∧
        (3.14159265359 < o.state.yaw.getAngle →
          3.14159265359 < o.state.yaw.getAngle - √N * |chol 6 o.covariance 3 j|) := by
  obtain ⟨r0, r1⟩ := Angle.getAngle_range o.state.yaw
  rw [C96_exact_iff_ctra hchol hP (dt := 0) (sub_self _).symm hNd hN
    (by rw [zero_mul, add_zero]; exact SameDir.refl _) r0 r1
    (by rw [mul_zero, zero_mul, zero_pow two_ne_zero, zero_mul, add_zero, add_zero]; exact hv)
    hp hδ hδ']
  simp only [zero_mul, add_zero, abs_mul, abs_of_nonneg (Real.sqrt_nonneg N)]

/-- The hypotheses of `C41_heading_iff_ctrv_partial` hold for an object heading π with unit
covariance: the heading is not left alone. -/
example {chol : Chol} (hchol : IsLlt chol) :
    ∃ o p : DynObj CtrvState CtrvCov, o.covariance.PosDef ∧ 7 * o.covariance 3 3 ≤ 9 ∧
      predict o o.timestamp (defaultUt chol) = .ok p ∧
      ¬ ∃ ε, |ε| ≤ 2 / 10 ^ 12 ∧ SameDir p.state.yaw.getAngle (o.state.yaw.getAngle + ε) := by
  have hP : (1 : CtrvCov).PosDef := PosDef.one
  have h9 : (7 : ℝ) * (1 : CtrvCov) 3 3 ≤ 9 := by
    rw [Matrix.one_apply_eq]; norm_num
  obtain ⟨p, hp, -⟩ := C41_others_ctrv_partial hchol (α := 1) (β := 2) (κ := 1)
    (o := ⟨0, westState, 1, ⟨[1]⟩, .unknown⟩) hP (by norm_num)
  refine ⟨⟨0, westState, 1, ⟨[1]⟩, .unknown⟩, p, hP, h9, hp, ?_⟩
  have hL : chol 5 1 = 1 := by
    have := hchol.diagonal (d := fun _ : Fin 5 => 1) fun _ => one_pos
    rw [diagonal_one] at this
    rw [this, Real.sqrt_one, diagonal_one]
  have hpi := Real.pi_gt_three
  obtain ⟨c1, -⟩ := yawCut_bounds
  rw [yawCut_lit] at c1
  rw [C41_heading_iff_ctrv_partial hchol (N := 7) hP (by norm_num) (by norm_num) h9 hp le_rfl
    (by norm_num; linarith)]
  intro h
  have h3 := (h 3).1
  have hs : (1 : ℝ) ≤ √7 := by rw [Real.one_le_sqrt]; norm_num
  rw [show westState.yaw.getAngle = Real.pi from west_yaw, hL, Matrix.one_apply_eq, abs_one,
    mul_one] at h3
  linarith [h3 c1.le]

end Mot.Props
