import Verif.Proofs.Indefinite
/-!
# Predictions with different parameters differ

The mean x position of a CTRV object driving along the x axis, as a function of the variance
of its heading, determines `α² (n + κ)`.
-/

namespace Mot

open Matrix Spec Real

/-- unit variances except for the heading -/
noncomputable def headingCov (σ : ℝ) : CtrvCov := diagonal ![1, 1, 1, σ ^ 2, 1]

theorem headingCov_pos {σ : ℝ} (hσ : 0 < σ) : ∀ i, 0 < (![1, 1, 1, σ ^ 2, 1] : Fin 5 → ℝ) i := by
  intro i
  fin_cases i
  · exact one_pos
  · exact one_pos
  · exact one_pos
  · exact pow_pos hσ 2
  · exact one_pos

theorem headingCov_posDef {σ : ℝ} (hσ : 0 < σ) : (headingCov σ).PosDef :=
  (isCholesky_diagonal (headingCov_pos hσ)).posDef

/-- the mean x position is `K + 7 cos(√N σ) / N` with `K` independent of `σ` -/
theorem heading_predict {chol : Chol} (hchol : IsLlt chol) (α β κ : ℝ)
    (hN : 0 < α ^ 2 * (5 + κ)) : ∃ K, ∀ σ, 0 < σ → ∃ s C,
      ukfPredict chol eastState (headingCov σ) 1 α β κ = .ok (s, C) ∧
      s.x = K + 7 * cos (√(α ^ 2 * (5 + κ)) * σ) / (α ^ 2 * (5 + κ)) := by
  have hN' : 0 < α ^ 2 * (((5 : ℕ) : ℝ) + κ) := by push_cast; exact hN
  have hrow : ∀ p : CtrvState, rotateYaw (MotionModel.toVec (MotionModel.next p 1) : Fin 5 → ℝ) 0 =
      (p.next 1).x := by
    intro p
    unfold rotateYaw
    rw [if_neg (by rintro ⟨h, -⟩; exact absurd h (by decide))]
    rfl
  set N := α ^ 2 * (5 + κ) with hNd
  -- the points for the yaw rate
  set G := (eastState.add (CtrvState.ofVec ![0, 0, 0, 0, √N])).next 1 with hG
  set H := (eastState.sub (CtrvState.ofVec ![0, 0, 0, 0, √N])).next 1 with hH
  refine ⟨generateLambda 5 α κ / N * 7 + 1 / (2 * N) * (42 + G.x + H.x), ?_⟩
  intro σ hσ
  obtain ⟨x, C, hx, hm⟩ := ukfPredict_mean chol eastState (headingCov σ) 1 α β κ hN'
  refine ⟨_, _, hx, ?_⟩
  show x 0 = _
  rw [hm 0]
  push_cast
  rw [← hNd]
  have hL : chol 5 (headingCov σ) = diagonal ![1, 1, 1, σ, 1] := by
    unfold headingCov
    rw [hchol.diagonal (headingCov_pos hσ)]
    congr 1
    funext i
    fin_cases i
    · exact Real.sqrt_one
    · exact Real.sqrt_one
    · exact Real.sqrt_one
    · exact Real.sqrt_sq hσ.le
    · exact Real.sqrt_one
  have hcol : ∀ j : Fin 5, √N • (diagonal ![1, 1, 1, σ, 1] : CtrvCov).col j =
      fun i => if i = j then √N * (![1, 1, 1, σ, 1] : Fin 5 → ℝ) j else 0 := by
    intro j
    funext i
    rw [Pi.smul_apply, col_apply, smul_eq_mul, diagonal_apply]
    split
    · rename_i h; rw [h]
    · exact mul_zero _
  have c0 : √N • (chol 5 (headingCov σ)).col 0 = ![√N, 0, 0, 0, 0] := by
    rw [hL, hcol]; funext i; fin_cases i <;> simp
  have c1 : √N • (chol 5 (headingCov σ)).col 1 = ![0, √N, 0, 0, 0] := by
    rw [hL, hcol]; funext i; fin_cases i <;> simp
  have c2 : √N • (chol 5 (headingCov σ)).col 2 = ![0, 0, √N, 0, 0] := by
    rw [hL, hcol]; funext i; fin_cases i <;> simp
  have c3 : √N • (chol 5 (headingCov σ)).col 3 = ![0, 0, 0, √N * σ, 0] := by
    rw [hL, hcol]; funext i; fin_cases i <;> simp
  have c4 : √N • (chol 5 (headingCov σ)).col 4 = ![0, 0, 0, 0, √N] := by
    rw [hL, hcol]; funext i; fin_cases i <;> simp
  have hadd : ∀ a b c d : ℝ, ((eastState.add (CtrvState.ofVec ![a, b, c, d, 0])).next 1).x =
      a + (7 + c) * cos d := by
    intro a b c d
    have : eastState.add (CtrvState.ofVec ![a, b, c, d, 0]) =
        ⟨0 + a, 0 + b, 7 + c, Angle.ofRad (0 + d), 0 + 0⟩ := by
      unfold CtrvState.add CtrvState.ofVec eastState
      simp [Angle.add_ofRad]
    rw [this, east_x _ _ _ _ (by norm_num), zero_add, zero_add]
  have hsub : ∀ a b c d : ℝ, ((eastState.sub (CtrvState.ofVec ![a, b, c, d, 0])).next 1).x =
      -a + (7 - c) * cos d := by
    intro a b c d
    have : eastState.sub (CtrvState.ofVec ![a, b, c, d, 0]) =
        ⟨0 - a, 0 - b, 7 - c, Angle.ofRad (0 - d), 0 - 0⟩ := by
      unfold CtrvState.sub CtrvState.ofVec eastState
      simp only [Angle.sub_ofRad]
      simp
    rw [this, east_x _ _ _ _ (by norm_num), zero_sub, zero_sub, cos_neg]
  have e : (eastState.next 1).x = 7 := by
    rw [eastState, east_x _ _ _ _ rfl, cos_zero]
    norm_num
  rw [Fin.sum_univ_five]
  simp only [hrow]
  rw [c0, c1, c2, c3, c4, e]
  have p := fun a b c d => (show (CtrvState.next (MotionModel.add eastState
    (MotionModel.ofVec ![a, b, c, d, 0])) 1).x = _ from hadd a b c d)
  have m := fun a b c d => (show (CtrvState.next (MotionModel.sub eastState
    (MotionModel.ofVec ![a, b, c, d, 0])) 1).x = _ from hsub a b c d)
  have p4 : (CtrvState.next (MotionModel.add eastState (MotionModel.ofVec ![0, 0, 0, 0, √N])) 1).x =
    G.x := rfl
  have m4 : (CtrvState.next (MotionModel.sub eastState (MotionModel.ofVec ![0, 0, 0, 0, √N])) 1).x =
    H.x := rfl
  rw [p, p, p, p, m, m, m, m, p4, m4, cos_zero]
  field_simp
  ring

/-- a CTRA object at the origin, at 7 m/s along the x axis -/
noncomputable def eastStateA : CtraState := ⟨0, 0, 7, Angle.ofRad 0, 0, 0⟩

theorem eastA_x (x y v c a : ℝ) {w : ℝ} (h : w = 0) :
    (CtraState.next ⟨x, y, v, Angle.ofRad c, w, a⟩ 1).x = x + (v + a / 2) * cos c := by
  subst h
  rw [(CtraState.next_straight (s := ⟨x, y, v, Angle.ofRad c, 0, a⟩) unitsEq_zero_zero 1).1]
  simp only [Angle.cos_getAngle_ofRad]
  ring

/-- unit variances except for the heading -/
noncomputable def headingCovA (σ : ℝ) : CtraCov := diagonal ![1, 1, 1, σ ^ 2, 1, 1]

theorem headingCovA_pos {σ : ℝ} (hσ : 0 < σ) : ∀ i, 0 < (![1, 1, 1, σ ^ 2, 1, 1] : Fin 6 → ℝ) i := by
  intro i
  fin_cases i
  · exact one_pos
  · exact one_pos
  · exact one_pos
  · exact pow_pos hσ 2
  · exact one_pos
  · exact one_pos

theorem headingCovA_posDef {σ : ℝ} (hσ : 0 < σ) : (headingCovA σ).PosDef :=
  (isCholesky_diagonal (headingCovA_pos hσ)).posDef

/-- the mean x position is `K + 7 cos(√N σ) / N` with `K` independent of `σ` -/
theorem heading_predictA {chol : Chol} (hchol : IsLlt chol) (α β κ : ℝ)
    (hN : 0 < α ^ 2 * (6 + κ)) : ∃ K, ∀ σ, 0 < σ → ∃ s C,
      ukfPredict chol eastStateA (headingCovA σ) 1 α β κ = .ok (s, C) ∧
      s.x = K + 7 * cos (√(α ^ 2 * (6 + κ)) * σ) / (α ^ 2 * (6 + κ)) := by
  have hN' : 0 < α ^ 2 * (((6 : ℕ) : ℝ) + κ) := by push_cast; exact hN
  have hrow : ∀ p : CtraState, rotateYaw (MotionModel.toVec (MotionModel.next p 1) : Fin 6 → ℝ) 0 =
      (p.next 1).x := by
    intro p
    unfold rotateYaw
    rw [if_neg (by rintro ⟨h, -⟩; exact absurd h (by decide))]
    rfl
  set N := α ^ 2 * (6 + κ) with hNd
  -- the points for the yaw rate
  set G := (eastStateA.add (CtraState.ofVec ![0, 0, 0, 0, √N, 0])).next 1 with hG
  set H := (eastStateA.sub (CtraState.ofVec ![0, 0, 0, 0, √N, 0])).next 1 with hH
  refine ⟨generateLambda 6 α κ / N * 7 + 1 / (2 * N) * (56 + G.x + H.x), ?_⟩
  intro σ hσ
  obtain ⟨x, C, hx, hm⟩ := ukfPredict_mean chol eastStateA (headingCovA σ) 1 α β κ hN'
  refine ⟨_, _, hx, ?_⟩
  show x 0 = _
  rw [hm 0]
  push_cast
  rw [← hNd]
  have hL : chol 6 (headingCovA σ) = diagonal ![1, 1, 1, σ, 1, 1] := by
    unfold headingCovA
    rw [hchol.diagonal (headingCovA_pos hσ)]
    congr 1
    funext i
    fin_cases i
    · exact Real.sqrt_one
    · exact Real.sqrt_one
    · exact Real.sqrt_one
    · exact Real.sqrt_sq hσ.le
    · exact Real.sqrt_one
    · exact Real.sqrt_one
  have hcol : ∀ j : Fin 6, √N • (diagonal ![1, 1, 1, σ, 1, 1] : CtraCov).col j =
      fun i => if i = j then √N * (![1, 1, 1, σ, 1, 1] : Fin 6 → ℝ) j else 0 := by
    intro j
    funext i
    rw [Pi.smul_apply, col_apply, smul_eq_mul, diagonal_apply]
    split
    · rename_i h; rw [h]
    · exact mul_zero _
  have c0 : √N • (chol 6 (headingCovA σ)).col 0 = ![√N, 0, 0, 0, 0, 0] := by
    rw [hL, hcol]; funext i; fin_cases i <;> simp
  have c1 : √N • (chol 6 (headingCovA σ)).col 1 = ![0, √N, 0, 0, 0, 0] := by
    rw [hL, hcol]; funext i; fin_cases i <;> simp
  have c2 : √N • (chol 6 (headingCovA σ)).col 2 = ![0, 0, √N, 0, 0, 0] := by
    rw [hL, hcol]; funext i; fin_cases i <;> simp
  have c3 : √N • (chol 6 (headingCovA σ)).col 3 = ![0, 0, 0, √N * σ, 0, 0] := by
    rw [hL, hcol]; funext i; fin_cases i <;> simp
  have c4 : √N • (chol 6 (headingCovA σ)).col 4 = ![0, 0, 0, 0, √N, 0] := by
    rw [hL, hcol]; funext i; fin_cases i <;> simp
  have c5 : √N • (chol 6 (headingCovA σ)).col 5 = ![0, 0, 0, 0, 0, √N] := by
    rw [hL, hcol]; funext i; fin_cases i <;> simp
  have hadd : ∀ a b c d e : ℝ, ((eastStateA.add (CtraState.ofVec ![a, b, c, d, 0, e])).next 1).x =
      a + (7 + c + e / 2) * cos d := by
    intro a b c d e
    have : eastStateA.add (CtraState.ofVec ![a, b, c, d, 0, e]) =
        ⟨0 + a, 0 + b, 7 + c, Angle.ofRad (0 + d), 0 + 0, 0 + e⟩ := by
      unfold CtraState.add CtraState.ofVec eastStateA
      simp [Angle.add_ofRad]
    rw [this, eastA_x _ _ _ _ _ (by norm_num), zero_add, zero_add, zero_add]
  have hsub : ∀ a b c d e : ℝ, ((eastStateA.sub (CtraState.ofVec ![a, b, c, d, 0, e])).next 1).x =
      -a + (7 - c - e / 2) * cos d := by
    intro a b c d e
    have : eastStateA.sub (CtraState.ofVec ![a, b, c, d, 0, e]) =
        ⟨0 - a, 0 - b, 7 - c, Angle.ofRad (0 - d), 0 - 0, 0 - e⟩ := by
      unfold CtraState.sub CtraState.ofVec eastStateA
      simp only [Angle.sub_ofRad]
      simp
    rw [this, eastA_x _ _ _ _ _ (by norm_num), zero_sub, zero_sub, zero_sub, cos_neg]
    ring
  have e : (eastStateA.next 1).x = 7 := by
    rw [eastStateA, eastA_x _ _ _ _ _ rfl, cos_zero]
    norm_num
  rw [Fin.sum_univ_six]
  simp only [hrow]
  rw [c0, c1, c2, c3, c4, c5, e]
  have p := fun a b c d e => (show (CtraState.next (MotionModel.add eastStateA
    (MotionModel.ofVec ![a, b, c, d, 0, e])) 1).x = _ from hadd a b c d e)
  have m := fun a b c d e => (show (CtraState.next (MotionModel.sub eastStateA
    (MotionModel.ofVec ![a, b, c, d, 0, e])) 1).x = _ from hsub a b c d e)
  have p4 : (CtraState.next (MotionModel.add eastStateA (MotionModel.ofVec ![0, 0, 0, 0, √N, 0])) 1).x =
    G.x := rfl
  have m4 : (CtraState.next (MotionModel.sub eastStateA (MotionModel.ofVec ![0, 0, 0, 0, √N, 0])) 1).x =
    H.x := rfl
  rw [p, p, p, p, p, m, m, m, m, m, p4, m4, cos_zero]
  field_simp
  ring

/-- amplitude and frequency are determined by the function -/
theorem cos_scaled_inj {N M K K' : ℝ} (hN : 0 < N) (hM : 0 < M)
    (h : ∀ σ, 0 < σ → K + 7 * cos (√N * σ) / N = K' + 7 * cos (√M * σ) / M) : N = M := by
  have key : ∀ {N M K K' : ℝ}, 0 < N → 0 < M →
      (∀ σ, 0 < σ → K + 7 * cos (√N * σ) / N = K' + 7 * cos (√M * σ) / M) → 1 / N ≤ 1 / M := by
    intro N M K K' hN hM h
    have rN := Real.sqrt_pos.2 hN
    have h2 := h (2 * π / √N) (by positivity)
    have h3 := h (π / √N) (by positivity)
    rw [mul_div_cancel₀ _ rN.ne', cos_two_pi] at h2
    rw [mul_div_cancel₀ _ rN.ne', cos_pi] at h3
    have b2 := mul_le_mul_of_nonneg_right (cos_le_one (√M * (2 * π / √N))) (one_div_pos.2 hM).le
    have b3 := mul_le_mul_of_nonneg_right (neg_one_le_cos (√M * (π / √N))) (one_div_pos.2 hM).le
    rw [mul_div_right_comm, mul_div_assoc (7 : ℝ), div_eq_mul_one_div (cos _) M] at h2 h3
    rw [div_eq_mul_one_div (7 : ℝ) N] at h2 h3
    linarith
  have h1 := key hN hM h
  have h2 := key hM hN fun σ hσ => (h σ hσ).symm
  have := le_antisymm h1 h2
  field_simp at this
  linarith

end Mot
