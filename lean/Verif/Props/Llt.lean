import Verif.Proofs.Llt
import Verif.Props.LinearPart
/-!
# C121: what the Cholesky decomposition of Eigen does to covariances that are not positive definite
-/

namespace Mot.Props

open Matrix Spec

/-! ## C121 -/

section
variable {n : ℕ}

/-- C121: for positive definite matrices the procedure returns the Cholesky factor; it meets the contract assumed
elsewhere. -/
theorem C121_contract : IsLlt eigenLlt := by
  intro n P hP
  have hs : Pᵀ = P := by
    have := hP.isHermitian
    rwa [IsHermitian, conjTranspose_eq_transpose_of_trivial] at this
  rcases Llt.unblocked_spec P with ⟨-, h⟩ | ⟨k, hk, -⟩
  · exact Llt.inv_factor le_rfl h hs
  · exact absurd (Llt.leading_posDef hP _ _) ((Llt.failed_spec hs).2 k hk).2

/-- C121: the procedure runs to its end (`info() == Success`) exactly for the positive definite matrices. -/
theorem C121_success_iff {P : Matrix (Fin n) (Fin n) ℝ} (hP : Pᵀ = P) : Llt.failed P = none ↔ P.PosDef := by
  refine ⟨(Llt.failed_spec hP).1, fun h => ?_⟩
  cases hf : Llt.failed P with
  | none => rfl
  | some k => exact absurd (Llt.leading_posDef h _ _) ((Llt.failed_spec hP).2 k hf).2

/-- C121: it gives up in column `k` exactly if the upper left `k × k` block is positive definite and the next one is
not. -/
theorem C121_gives_up_iff {P : Matrix (Fin n) (Fin n) ℝ} (hP : Pᵀ = P) (k : Fin n) :
    Llt.failed P = some k ↔ (leading P k k.2.le).PosDef ∧ ¬ (leading P (k + 1) k.2).PosDef := by
  refine ⟨(Llt.failed_spec hP).2 k, fun ⟨h1, h2⟩ => ?_⟩
  cases hf : Llt.failed P with
  | none => exact absurd (Llt.leading_posDef ((Llt.failed_spec hP).1 hf) _ _) h2
  | some k' =>
    obtain ⟨h3, h4⟩ := (Llt.failed_spec hP).2 k' hf
    rcases lt_trichotomy k k' with h | h | h
    · exact absurd (Llt.leading_posDef h3 (k + 1) h) h2
    · rw [h]
    · exact absurd (Llt.leading_posDef h1 (k' + 1) h) h4

/-- C121: if it gives up in column `k`, the columns before `k` are those of a factor, and from column `k` on the
lower triangle of the covariance itself is used. -/
theorem C121_left_over {P : Matrix (Fin n) (Fin n) ℝ} (hP : Pᵀ = P) {k : Fin n} (hk : Llt.failed P = some k) :
    IsCholesky (leading (eigenLlt n P) k k.2.le) (leading P k k.2.le) ∧
    (∀ i j : Fin n, j < k → k ≤ i → (eigenLlt n P * (eigenLlt n P)ᵀ) i j = P i j) ∧
    ∀ i j : Fin n, k ≤ j → eigenLlt n P i j = lowerPart P i j := by
  rcases Llt.unblocked_spec P with ⟨h, -⟩ | ⟨k', h, hi, -⟩
  · rw [hk] at h; cases h
  rw [hk] at h
  cases h
  have hlow : ∀ i j : Fin n, i < j → eigenLlt n P i j = 0 := fun i j hij => if_neg (not_le.2 hij)
  have hle : ∀ {i j : Fin n}, j ≤ i → eigenLlt n P i j = (Llt.unblocked P).1 i j := fun hij => if_pos hij
  refine ⟨Llt.inv_factor k.2.le hi hP, ?_, ?_⟩
  · intro i j hj hki
    have hji : j < i := hj.trans_le hki
    rw [Llt.sum_lower hlow, hle hji.le, hle le_rfl, ← hi.done i j hj hji.le]
    congr 1
    refine Finset.sum_congr rfl fun l hl => ?_
    have hl := (Finset.mem_filter.1 hl).2
    rw [hle (hl.trans hji).le, hle hl.le]
  · intro i j hj
    show (if j ≤ i then _ else _) = if j ≤ i then _ else _
    split
    · exact hi.rest i j (.inl hj)
    · rfl

/-- C121: only the lower triangle of the covariance is read. -/
theorem C121_lower_only {P Q : Matrix (Fin n) (Fin n) ℝ} (h : ∀ i j, j ≤ i → P i j = Q i j) :
    eigenLlt n P = eigenLlt n Q ∧ Llt.failed P = Llt.failed Q := by
  have h' : lowerPart P = lowerPart Q := by
    funext i j
    show (if j ≤ i then _ else _) = if j ≤ i then _ else _
    split
    · rename_i hij; exact h i j hij
    · rfl
  exact Llt.loop_lower _ h'

/-- C121: if the procedure gives up and the result is a factor of the covariance nevertheless, the variable in whose
column it gave up is known exactly: its row and column are zero. -/
theorem C121_wrong {P : Matrix (Fin n) (Fin n) ℝ} (hP : Pᵀ = P) {k : Fin n} (hk : Llt.failed P = some k)
    (h : eigenLlt n P * (eigenLlt n P)ᵀ = P) : ∀ i, P i k = 0 ∧ P k i = 0 := by
  rcases Llt.unblocked_spec P with ⟨hf, -⟩ | ⟨k', hf, hi, hx⟩
  · rw [hk] at hf; cases hf
  rw [hk] at hf
  cases hf
  have hlow : ∀ i j : Fin n, i < j → eigenLlt n P i j = 0 := fun i j hij => if_neg (not_le.2 hij)
  have hle : ∀ {i j : Fin n}, j ≤ i → eigenLlt n P i j = (Llt.unblocked P).1 i j := fun hij => if_pos hij
  have hkk := congrFun (congrFun h k) k
  rw [Llt.sum_lower hlow, hle le_rfl, hi.rest k k (.inl le_rfl)] at hkk
  have hsum : ∑ l with l < k, eigenLlt n P k l * eigenLlt n P k l = ∑ l with l < k, (Llt.unblocked P).1 k l ^ 2 :=
    Finset.sum_congr rfl fun l hl => by rw [hle (Finset.mem_filter.1 hl).2.le, sq]
  rw [hsum] at hkk
  have hzero : P k k = 0 := by nlinarith [mul_self_nonneg (P k k)]
  have hrow : ∀ l, l < k → (Llt.unblocked P).1 k l = 0 := by
    have h0 : ∑ l with l < k, (Llt.unblocked P).1 k l ^ 2 = 0 := by rw [hzero] at hkk; linarith
    rw [Finset.sum_eq_zero_iff_of_nonneg fun _ _ => sq_nonneg _] at h0
    intro l hl
    exact pow_eq_zero_iff two_ne_zero |>.1 (h0 l (Finset.mem_filter.2 ⟨Finset.mem_univ l, hl⟩))
  have hcol : ∀ i, P i k = 0 := by
    intro i
    rcases lt_or_ge i k with hik | hik
    · have hs : P i k = P k i := congrFun (congrFun hP k) i
      rw [hs, ← hi.done k i hik hik.le, hrow i hik, zero_mul, add_zero]
      exact Finset.sum_eq_zero fun l hl => by
        rw [hrow l ((Finset.mem_filter.1 hl).2.trans hik), zero_mul]
    · have h1 := congrFun (congrFun h i) k
      rw [Llt.sum_lower hlow, hle le_rfl, hi.rest k k (.inl le_rfl), hzero, mul_zero, add_zero] at h1
      rw [← h1]
      exact Finset.sum_eq_zero fun l hl => by
        have hl := (Finset.mem_filter.1 hl).2
        rw [hle hl.le, hrow l hl, mul_zero]
  exact fun i => ⟨hcol i, by rw [← hcol i]; exact (congrFun (congrFun hP k) i).symm⟩

open Classical in
/-- C121 for diagonal covariances: standard deviations up to the first variance that is not positive, the variances
themselves from there on. -/
theorem C121_diagonal (d : Fin n → ℝ) :
    eigenLlt n (diagonal d) = diagonal fun i => if ∀ j ≤ i, 0 < d j then √(d i) else d i :=
  Llt.matrixL_diagonal d

/-- C121: the factor of a diagonal covariance is right exactly if all variances from the first zero on are 0 or 1. -/
theorem C121_diagonal_iff (d : Fin n → ℝ) :
    eigenLlt n (diagonal d) * (eigenLlt n (diagonal d))ᵀ = diagonal d ↔
      ∀ i, (∃ j ≤ i, d j ≤ 0) → d i = 0 ∨ d i = 1 := by
  rw [C121_diagonal, diagonal_transpose, diagonal_mul_diagonal, diagonal_injective.eq_iff, funext_iff]
  refine forall_congr' fun i => ?_
  by_cases h : ∀ j ≤ i, 0 < d j
  · rw [if_pos h]
    refine ⟨fun _ ⟨j, hj, hd⟩ => absurd (h j hj) (not_lt.2 hd), fun _ => Real.mul_self_sqrt (h i le_rfl).le⟩
  · rw [if_neg h]
    push Not at h
    refine ⟨fun he _ => ?_, fun he => ?_⟩
    · rcases mul_eq_zero.1 (show d i * (d i - 1) = 0 by linarith) with h0 | h0
      · exact .inl h0
      · exact .inr (by linarith)
    · rcases he h with h0 | h0 <;> rw [h0] <;> norm_num

/-- C121: if the first variance is not positive, the lower triangle of the covariance is used as its own factor. -/
theorem C121_first {P : Matrix (Fin (n + 1)) (Fin (n + 1)) ℝ} (h : P 0 0 ≤ 0) :
    eigenLlt (n + 1) P = lowerPart P := Llt.matrixL_first h

end

/-! ### consequences for predictions -/

/-- C121: predicting a CTRV object whose x is known exactly, by any duration: the variances of the speed and the turn
rate and their covariance become those of `lowerPart P * (lowerPart P)ᵀ`. -/
theorem C121_known_x {o p : DynObj CtrvState CtrvCov} (hx : o.covariance 0 0 ≤ 0) {α β κ time : ℝ}
    (h : predict o time (unscentedTransform eigenLlt α β κ) = .ok p) :
    p.state.v = o.state.v ∧ p.state.yawRate = o.state.yawRate ∧
    ∀ i j, i = 2 ∨ i = 4 → j = 2 ∨ j = 4 →
      p.covariance i j = (lowerPart o.covariance * (lowerPart o.covariance)ᵀ) i j := by
  have h' := predict_ok h
  have hN := (C42_defined_iff _ _ _ _ _ _ _).1 ⟨_, h'⟩
  have hQ : eigenLlt 5 o.covariance * (eigenLlt 5 o.covariance)ᵀ =
      lowerPart o.covariance * (lowerPart o.covariance)ᵀ := by rw [C121_first hx]
  obtain ⟨x, P', h1, h2, h3⟩ := ukfPredict_affine_of_factor o.state hQ (β := κ)
    (dt := time - o.timestamp) hN (fun i => i = 2 ∨ i = 4) 1 0 (by
      intro q z hz _ i hi
      rw [one_mulVec, add_zero]
      rcases hi with rfl | rfl
      · rw [rotateYaw_of_ne (by decide)]; exact hz 2
      · rw [rotateYaw_of_ne (by decide)]; exact hz 4)
  rw [h1] at h'
  simp only [Outcome.ok.injEq, Prod.mk.injEq] at h'
  obtain ⟨hs, hC⟩ := h'
  simp only [one_mulVec, add_zero, one_mul, transpose_one, mul_one] at h2 h3
  rw [← hs, ← hC]
  exact ⟨h2 2 (.inl rfl), h2 4 (.inr rfl), fun i j hi hj => h3 i j hi hj⟩

/-- C121: with a diagonal covariance and x known exactly, prediction by any duration squares the variances of speed
and turn rate: large ones grow, small ones shrink. -/
theorem C121_squares {o p : DynObj CtrvState CtrvCov} {d : Fin 5 → ℝ} (hP : o.covariance = diagonal d)
    (hx : d 0 ≤ 0) {α β κ time : ℝ} (h : predict o time (unscentedTransform eigenLlt α β κ) = .ok p) :
    p.covariance 2 2 = d 2 ^ 2 ∧ p.covariance 4 4 = d 4 ^ 2 ∧ p.covariance 2 4 = 0 := by
  obtain ⟨-, -, h1⟩ := C121_known_x (by rw [hP, diagonal_apply_eq]; exact hx) h
  have hl : lowerPart o.covariance = diagonal d := by
    rw [hP]
    funext i j
    show (if j ≤ i then _ else _) = _
    split
    · rfl
    · rename_i hij
      rw [diagonal_apply_ne _ (not_le.1 hij).ne]
  rw [hl, diagonal_transpose, diagonal_mul_diagonal] at h1
  refine ⟨(h1 2 2 (.inl rfl) (.inl rfl)).trans ?_, (h1 4 4 (.inr rfl) (.inr rfl)).trans ?_,
    (h1 2 4 (.inl rfl) (.inr rfl)).trans ?_⟩
  · rw [diagonal_apply_eq, sq]
  · rw [diagonal_apply_eq, sq]
  · rw [diagonal_apply_ne _ (by decide)]

/-- C121 for CTRA objects. -/
theorem C121_squares_ctra {o p : DynObj CtraState CtraCov} {d : Fin 6 → ℝ} (hP : o.covariance = diagonal d)
    (hx : d 0 ≤ 0) {α β κ time : ℝ} (h : predict o time (unscentedTransform eigenLlt α β κ) = .ok p) :
    p.covariance 2 2 = d 2 ^ 2 + (time - o.timestamp) ^ 2 * d 5 ^ 2 ∧ p.covariance 4 4 = d 4 ^ 2 ∧
      p.covariance 5 5 = d 5 ^ 2 := by
  have h' := predict_ok h
  have hN := (C42_defined_iff _ _ _ _ _ _ _).1 ⟨_, h'⟩
  generalize time - o.timestamp = dt at h' ⊢
  have hQ : eigenLlt 6 o.covariance * (eigenLlt 6 o.covariance)ᵀ = diagonal fun i => d i ^ 2 := by
    rw [hP, C121_diagonal, diagonal_transpose, diagonal_mul_diagonal]
    congr 1
    funext i
    rw [if_neg fun hall => absurd (hall 0 (Fin.zero_le _)) (not_lt.2 hx), sq]
  obtain ⟨x, P', h1, -, h3⟩ := ukfPredict_affine_of_factor o.state hQ (β := κ)
    (dt := dt) hN (fun i => i = 2 ∨ i = 4 ∨ i = 5) (ctraStep dt) 0 (by
      intro q z hz _ i hi
      rw [add_zero, ctraStep_mulVec]
      rcases hi with rfl | rfl | rfl
      · rw [rotateYaw_of_ne (by decide)]
        have e2 : q.v = z 2 := hz 2
        have e5 : q.a = z 5 := hz 5
        show q.v + q.a * dt = z 2 + dt * z 5
        rw [e2, e5, mul_comm]
      · rw [rotateYaw_of_ne (by decide)]; exact hz 4
      · rw [rotateYaw_of_ne (by decide)]; exact hz 5)
  rw [h1] at h'
  simp only [Outcome.ok.injEq, Prod.mk.injEq] at h'
  obtain ⟨hs, hC⟩ := h'
  rw [← hC]
  have e : ∀ i j, (ctraStep dt * (diagonal fun i => d i ^ 2) * (ctraStep dt)ᵀ) i j =
      (ctraStep dt *ᵥ fun k => (ctraStep dt *ᵥ fun l => (diagonal fun i => d i ^ 2 : Matrix _ _ ℝ) l k) i) j :=
    sandwich_apply _ _
  refine ⟨(h3 2 2 (.inl rfl) (.inl rfl)).trans ?_, (h3 4 4 (.inr (.inl rfl)) (.inr (.inl rfl))).trans ?_,
    (h3 5 5 (.inr (.inr rfl)) (.inr (.inr rfl))).trans ?_⟩
  · rw [e]; simp [ctraStep_mulVec, diagonal_apply]; try ring
  · rw [e]; simp [ctraStep_mulVec, diagonal_apply]
  · rw [e]; simp [ctraStep_mulVec, diagonal_apply]

section
variable {S : Type} {n : ℕ} [MotionModel S (n + 1)] [MotionLaws S (n + 1)]

/-- C121: predicting an object whose first variable is known exactly to its own time replaces the covariance `P` by
`lowerPart P * (lowerPart P)ᵀ` (headings away from the cut, as in C41). -/
theorem C121_own_time {o : DynObj S (Matrix (Fin (n + 1)) (Fin (n + 1)) ℝ)} (hs : MotionLaws.Valid o.state)
    (hx : o.covariance 0 0 ≤ 0) {α β κ : ℝ} (hN : 0 < α ^ 2 * ((n + 1 : ℕ) + β)) {Q : Matrix (Fin (n + 1)) (Fin (n + 1)) ℝ}
    (hQ : Q = lowerPart o.covariance * (lowerPart o.covariance)ᵀ)
    (hlow : ∀ k : Fin (n + 1), k.1 = 3 →
      √(α ^ 2 * ((n + 1 : ℕ) + β) * Q k k) ≤ MotionModel.toVec o.state k ∧
      MotionModel.toVec o.state k + √(α ^ 2 * ((n + 1 : ℕ) + β) * Q k k) ≤ yawCut) :
    predict o o.timestamp (unscentedTransform eigenLlt α β κ) = .ok { o with covariance := Q } := by
  have hf : eigenLlt (n + 1) o.covariance * (eigenLlt (n + 1) o.covariance)ᵀ = Q := by
    rw [C121_first hx, hQ]
  have h := ukfPredict_zero_of_factor hs hf (β := κ) hN (b := 0) fun v z h1 h2 h3 => by
    rw [add_zero]
    refine row_low h1 h2 fun k hk => ?_
    obtain ⟨l1, l2⟩ := hlow k hk
    have := abs_le.1 (h3 k hk)
    constructor <;> linarith [this.1, this.2]
  rw [add_zero, MotionLaws.ofVec_toVec _ hs] at h
  rw [(C37_swapped eigenLlt α β κ o.timestamp o).2 o.state Q (by rw [sub_self]; exact h)]

end

/-- `C121_own_time`: an object whose x and heading are known exactly.  Predicting it to its own time turns the variance 9
of y into 81 and the variance 1/4 of the speed into 1/16. -/
example : ∃ o : DynObj CtrvState CtrvCov, o.covariance = diagonal ![0, 9, 1 / 4, 0, 1] ∧
    o.covariance.PosSemidef ∧
    predict o o.timestamp (defaultUt eigenLlt) = .ok { o with covariance := diagonal ![0, 81, 1 / 16, 0, 1] } := by
  have hQ : diagonal ![0, 81, 1 / 16, 0, 1] = lowerPart (diagonal ![0, 9, 1 / 4, 0, 1] : Matrix (Fin 5) (Fin 5) ℝ) *
      (lowerPart (diagonal ![0, 9, 1 / 4, 0, 1]))ᵀ := by
    have hl : lowerPart (diagonal ![0, 9, 1 / 4, 0, 1] : Matrix (Fin 5) (Fin 5) ℝ) = diagonal ![0, 9, 1 / 4, 0, 1] := by
      funext i j
      show (if j ≤ i then _ else _) = _
      split
      · rfl
      · rename_i hij
        rw [diagonal_apply_ne _ (not_le.1 hij).ne]
    rw [hl, diagonal_transpose, diagonal_mul_diagonal]
    congr 1
    funext i
    fin_cases i <;> simp <;> norm_num
  have hy : (Angle.ofRad (Real.pi / 2)).getAngle = Real.pi / 2 :=
    Angle.getAngle_ofRad_of_range (by constructor <;> linarith [Real.pi_pos])
  refine ⟨⟨0, ⟨0, 0, 1, Angle.ofRad (Real.pi / 2), 0⟩, diagonal ![0, 9, 1 / 4, 0, 1], ⟨[1]⟩, .unknown⟩, rfl, ?_, ?_⟩
  · refine posSemidef_diagonal_iff.2 fun i => ?_
    fin_cases i <;> simp
  · refine C121_own_time (S := CtrvState) (n := 4) (Angle.valid_ofRad _) ?_ (α := 1) (β := 2) (κ := 1) (by norm_num) hQ ?_
    · show diagonal _ 0 0 ≤ _
      rw [diagonal_apply_eq]; rfl
    · intro k hk
      rw [show k = 3 from Fin.ext hk]
      have e : (diagonal ![0, 81, 1 / 16, 0, 1] : Matrix (Fin 5) (Fin 5) ℝ) 3 3 = 0 := by
        rw [diagonal_apply_eq]; rfl
      show √(_ * (diagonal ![0, 81, 1 / 16, 0, 1] : Matrix (Fin 5) (Fin 5) ℝ) 3 3) ≤ (Angle.ofRad (Real.pi / 2)).getAngle ∧
        (Angle.ofRad (Real.pi / 2)).getAngle + √(_ * (diagonal ![0, 81, 1 / 16, 0, 1] : Matrix (Fin 5) (Fin 5) ℝ) 3 3) ≤ yawCut
      obtain ⟨c1, c2⟩ := yawCut_bounds
      have hpi := Real.pi_lt_d2
      have hpi' := Real.pi_pos
      rw [e, mul_zero, Real.sqrt_zero, hy]
      norm_num at c2
      constructor <;> linarith [Real.pi_gt_three]

/-- `C121_gives_up_iff` and `C121_wrong`: fully correlated x and y.  The procedure gives up in the second column, and the
result is not a factor. -/
example : Llt.failed (!![1, 2; 2, 4] : Matrix (Fin 2) (Fin 2) ℝ) = some 1 ∧
    (!![1, 2; 2, 4] : Matrix (Fin 2) (Fin 2) ℝ).PosSemidef ∧
    eigenLlt 2 !![1, 2; 2, 4] * (eigenLlt 2 !![1, 2; 2, 4])ᵀ ≠ !![1, 2; 2, 4] := by
  have hs : (!![1, 2; 2, 4] : Matrix (Fin 2) (Fin 2) ℝ)ᵀ = !![1, 2; 2, 4] := by
    ext i j; fin_cases i <;> fin_cases j <;> rfl
  have hf : Llt.failed (!![1, 2; 2, 4] : Matrix (Fin 2) (Fin 2) ℝ) = some 1 := by
    rw [C121_gives_up_iff hs]
    constructor
    · have : leading (!![1, 2; 2, 4] : Matrix (Fin 2) (Fin 2) ℝ) 1 (by norm_num) = 1 := by
        ext i j; fin_cases i; fin_cases j; rfl
      show (leading (!![1, 2; 2, 4] : Matrix (Fin 2) (Fin 2) ℝ) 1 _).PosDef
      rw [this]; exact PosDef.one
    · intro h
      have h2 : (!![1, 2; 2, 4] : Matrix (Fin 2) (Fin 2) ℝ).PosDef := h
      have := h2.det_pos
      norm_num [det_fin_two] at this
  refine ⟨hf, ?_, fun h => ?_⟩
  · have : (!![1, 2; 2, 4] : Matrix (Fin 2) (Fin 2) ℝ) = vecMulVec ![1, 2] (star ![1, 2]) := by
      ext i j; fin_cases i <;> fin_cases j <;> norm_num [vecMulVec]
    rw [this]
    exact posSemidef_vecMulVec_self_star _
  · have := (C121_wrong hs hf h 0).1
    norm_num at this

end Mot.Props
