import Verif.Spec.FloatBounds
import Verif.Props.FloatSigma
import Verif.Props.FloatExactExample
/-!
# Sizes of the numbers in a prediction of an ordinary object
-/

namespace Mot.Props

open Mot Spec Matrix

variable {m : Libm}

/-! ### The transform -/

section
variable {S : Type} {n : ℕ} [MotionModelF S n] {s s' : S} {L P' : Matrix (Fin n) (Fin n) FP} {dt : FP} {B : Fin n → ℚ}

theorem utCond_two (n : ℕ) : utCond n 2 = 1 := by
  unfold utCond
  rw [abs_of_pos (by positivity), abs_of_pos (by positivity), add_comm]
  exact div_self (by positivity)

/-- If the predicted points are finite, then so is the prediction. -/
theorem transform_bounded (hn : 1 ≤ n) (hn' : n ≤ 6) (hΛ : lambdaF n (.fin 1) (.fin 2) = .fin 2) (hB0 : ∀ j, 1 ≤ B j)
    (hB : ∀ j, B j ≤ 2 ^ 27)
    (hp : ∀ p ∈ s :: sigmaPointsF s L (.fin 2), ∀ j,
      FiniteWithin (rotateYawF (MotionModelF.toVec (MotionModelF.next p dt)) j) (B j))
    (h : IsTransformF (.fin 1) (.fin 2) (.fin 1) s L dt s' P') :
    (∃ q : Fin n → ℚ, s' = MotionModelF.ofVec (fun j => .fin (q j)) ∧
      (∀ j, FP.conv binary64 (.fin (q j)) = .fin (q j)) ∧ ∀ j, |q j| ≤ 2 * B j) ∧
    ∀ j k, ∃ q, P' j k = .fin q := by
  choose! c hc hcB using hp
  let row : S → Fin n → ℝ := fun p j => c p j
  have hB0' : ∀ j, 0 ≤ B j := fun j => zero_le_one.trans (hB0 j)
  have near : List.Forall₂ (fun p r => RowNear (fun j => B j + (B j / 2 ^ 22 + 0 + 1 / 2 ^ 90))
      (fun j => ((B j / 2 ^ 22 + 0 + 1 / 2 ^ 90 : ℚ) : ℝ))
      (rotateYawF (MotionModelF.toVec (MotionModelF.next p dt))) (row r))
      (s :: sigmaPointsF s L (.fin 2)) (s :: sigmaPointsF s L (.fin 2)) := by
    rw [List.forall₂_same]
    intro p hp j
    refine ⟨c p j, hc p hp j, (hcB p hp j).trans ?_, ?_⟩
    · have := hB0' j
      have : 0 ≤ B j / 2 ^ 22 := by positivity
      norm_num at this ⊢
      linarith
    · show |((c p j : ℚ) : ℝ) - (c p j : ℚ)| ≤ _
      rw [sub_self, abs_zero]
      have := hB0' j
      exact Rat.cast_nonneg.2 (by positivity : (0 : ℚ) ≤ B j / 2 ^ 22 + 0 + 1 / 2 ^ 90)
  have hl : (sigmaPointsF s L (.fin 2)).length = 2 * n := by
    have := (rows_near near).2
    simpa using this
  have hrow : ∀ p ∈ s :: sigmaPointsF s L (.fin 2), ∀ j, |row p j| ≤ B j := by
    intro p hp j
    have := (Rat.cast_le (K := ℝ)).2 (hcB p hp j)
    rwa [Rat.cast_abs] at this
  have hD : (1 : ℚ) ≤ |(n : ℚ) + 2| := by
    rw [abs_of_pos (by positivity)]
    have : (0 : ℚ) ≤ n := by positivity
    linarith
  have hmean : ∀ j, |utMean n 2 (row s j) ((sigmaPointsF s L (.fin 2)).map (row · j))| ≤ B j := by
    intro j
    have := utMean_le (n := n) (Λ := 2) (y0 := row s j) (ys := (sigmaPointsF s L (.fin 2)).map (row · j)) (η := B j)
      (by positivity) (hrow s List.mem_cons_self j) (by
        intro y hy
        obtain ⟨p, hp, rfl⟩ := List.mem_map.1 hy
        exact hrow p (List.mem_cons_of_mem _ hp) j) (by rw [List.length_map, hl])
    rwa [utCond_two, one_mul] at this
  have herr : ∀ j, meanErr n 2 (B j) ((0 : ℚ) : ℝ) ≤ B j := by
    intro j
    unfold meanErr
    rw [utCond_two]
    have h1 : (n : ℝ) ≤ 6 := by exact_mod_cast hn'
    have h2 : (1 : ℝ) ≤ B j := by exact_mod_cast hB0 j
    have h3 : (2 * (n : ℝ) + 10) / 2 ^ 24 * B j ≤ 22 / 2 ^ 24 * B j := by gcongr; linarith
    push_cast
    norm_num at h3 ⊢
    linarith
  constructor
  · obtain ⟨q, h1, h2, h3, -⟩ := transform_mean (row := row) (ρ := fun _ => 0) hn (by omega) hΛ (by norm_num [abs_of_pos])
      (le_trans (by norm_num) hD) hB0' (fun j => (hB j).trans (by norm_num)) (fun _ => le_rfl) (fun _ => by norm_num) near h
    refine ⟨q, h1, h2, fun j => ?_⟩
    have e1 := (h3 j).trans (by simpa using herr j)
    have e2 := hmean j
    have e3 := abs_add_le ((q j : ℝ) - utMean n 2 (row s j) ((sigmaPointsF s L (.fin 2)).map (row · j)))
      (utMean n 2 (row s j) ((sigmaPointsF s L (.fin 2)).map (row · j)))
    rw [sub_add_cancel] at e3
    have e4 : |(q j : ℝ)| ≤ ((2 * B j : ℚ) : ℝ) := by
      push_cast at e1 ⊢
      linarith
    exact_mod_cast e4
  · intro j k
    obtain ⟨p, hp, -⟩ := transform_cov (row := row) (ρ := fun _ => 0) (a := 1) (b := 1) (Λ := 2) (D := fun j => 2 * (B j : ℝ)) hn (by omega)
      hΛ (by norm_num) (by norm_num) (by norm_num [abs_of_pos]) (le_trans (by norm_num) hD) hB0' hB (fun _ => le_rfl)
      (fun _ => by norm_num) near (by
        intro r hr j
        have e1 := abs_sub (row r j) (utMean n ((2 : ℚ) : ℝ) (row s j) ((sigmaPointsF s L (.fin 2)).map (row · j)))
        have e2 := hmean j
        have e3 := hrow r hr j
        rw [show (((2 : ℚ) : ℝ)) = 2 by norm_num] at *
        linarith) (by
        intro j
        have e1 := herr j
        have e2 : (B j : ℝ) ≤ 2 ^ 27 := by exact_mod_cast hB j
        rw [show (((2 : ℚ) : ℝ)) = 2 by norm_num]
        show _ + 2 * meanErr n 2 (B j) ((0 : ℚ) : ℝ) ≤ _
        norm_num at e2 ⊢
        norm_num at e1
        linarith) h j k
    exact ⟨p, hp⟩

end

/-! ### The motion models -/

theorem conv_within {X B : ℚ} (h : |X| ≤ B) (hB : B ≤ 2 ^ 26) (hB1 : 1 ≤ B) :
    FiniteWithin (FP.conv binary32 (.fin X)) (2 * B) := by
  obtain ⟨c, h1, h2, -⟩ := conv_row (X := X) (Y := (X : ℝ)) (η := 0) (B := B) (by simp) (by exact_mod_cast h)
    (hB.trans (by norm_num)) (by norm_num)
  refine ⟨c, h1, h2.trans ?_⟩
  norm_num
  linarith

theorem rotate_other {n : ℕ} {row : Fin n → FP} {j : Fin n} (hj : j.1 ≠ 3) : rotateYawF row j = row j := by
  unfold rotateYawF
  rw [if_neg (fun h => hj h.1)]

theorem heading_seven {a : ℚ} (ha : 0 ≤ a) (ha' : (a : ℝ) < 2 * Real.pi) : |a| ≤ 7 := by
  rw [abs_of_nonneg ha]
  have := Real.pi_lt_d2
  have : (a : ℝ) ≤ 7 := by linarith
  exact_mod_cast this

/-- from the error of a position to its size -/
theorem position_size {X : ℚ} {E x η D : ℝ} (h : |(X : ℝ) - E| ≤ η) (hd : |E - x| ≤ D) {B : ℚ} (hB : |x| + D + η ≤ B) :
    |X| ≤ B := by
  have e1 := abs_add_le ((X : ℝ) - E) E
  have e2 := abs_add_le (E - x) x
  rw [sub_add_cancel] at e1 e2
  have : |(X : ℝ)| ≤ B := by linarith
  exact_mod_cast this

/-- sizes of the columns of a CTRV prediction -/
def ctrvSize : Fin 5 → ℚ := ![2 ^ 27, 2 ^ 27, 2 ^ 12, 4, 2 ^ 12]

theorem ctrv_finite (hm : AccurateTrig m) (hm' : AccuratePhase m) {p : CtrvStateF m} {x y v w a T : ℚ}
    (hp : CtrvFields p x y v w a) (ha : 0 ≤ a) (ha' : (a : ℝ) < 2 * Real.pi) (hx : |x| ≤ 2 ^ 24) (hy : |y| ≤ 2 ^ 24)
    (hv : |v| ≤ 2 ^ 11) (hw : |w| ≤ 2 ^ 11) (hw' : w = 0 ∨ 1 / 2 ^ 60 ≤ |w|) (hT : |T| ≤ 2 ^ 6) (j : Fin 5) :
    FiniteWithin (rotateYawF (MotionModelF.toVec (MotionModelF.next p (.fin T))) j) (ctrvSize j) := by
  have hvT : |v * T| ≤ 2 ^ 17 := by
    rw [abs_mul]
    exact (mul_le_mul hv hT (abs_nonneg _) (by norm_num)).trans (by norm_num)
  have hwT : |w * T| ≤ 2 ^ 17 := by
    rw [abs_mul]
    exact (mul_le_mul hw hT (abs_nonneg _) (by norm_num)).trans (by norm_num)
  have hx1 := (Rat.cast_le (K := ℝ)).2 hx
  have hy1 := (Rat.cast_le (K := ℝ)).2 hy
  have hvT1 := (Rat.cast_le (K := ℝ)).2 hvT
  push_cast at hx1 hy1 hvT1
  have hd := (C50_displacement ⟨x, y, v, Angle.ofRad a, w⟩ T).1
  have dx := (Real.abs_le_sqrt (le_add_of_nonneg_right (sq_nonneg _))).trans hd
  have dy := (Real.abs_le_sqrt (le_add_of_nonneg_left (sq_nonneg _))).trans hd
  have pos : ∃ X Y : ℚ, (p.next (.fin T)).x = .fin X ∧ (p.next (.fin T)).y = .fin Y ∧ |X| ≤ 2 ^ 26 ∧ |Y| ≤ 2 ^ 26 := by
    rcases hw' with rfl | hw'
    · obtain ⟨X, Y, h1, h2, h3, h4⟩ := C89_accuracy_straight p hm hp ha ha' (hx.trans (by norm_num)) (hy.trans (by norm_num))
        (by rw [abs_zero]; positivity) (hv.trans (by norm_num)) T (hT.trans (by norm_num))
      refine ⟨X, Y, h1, h2, position_size h3 dx ?_, position_size h4 dy ?_⟩
      · show |(x : ℝ)| + |(v * T : ℝ)| + _ ≤ _
        generalize |(x : ℝ)| = u at *
        generalize |(v * T : ℝ)| = u' at *
        clear * - hx1 hvT1
        norm_num at *
        linarith
      · show |(y : ℝ)| + |(v * T : ℝ)| + _ ≤ _
        generalize |(y : ℝ)| = u at *
        generalize |(v * T : ℝ)| = u' at *
        clear * - hy1 hvT1
        norm_num at *
        linarith
    · have hQ : |v / w| ≤ 2 ^ 71 := by
        rw [abs_div, div_le_iff₀ (lt_of_lt_of_le (by norm_num) hw')]
        norm_num at hv hw' ⊢
        linarith
      have hQ1 := (Rat.cast_le (K := ℝ)).2 hQ
      push_cast at hQ1
      obtain ⟨X, Y, h1, h2, h3, h4⟩ := C89_accuracy_turn p hm hp ha ha' (hx.trans (by norm_num)) (hy.trans (by norm_num))
        (by
          refine le_trans ?_ hw'
          refine (zpow_le_zpow_right₀ (by norm_num : (1 : ℚ) ≤ 2) (by norm_num : (-1022 : ℤ) ≤ -60)).trans ?_
          norm_num) (hQ.trans (by norm_num)) T (hwT.trans (by norm_num))
      refine ⟨X, Y, h1, h2, position_size h3 dx ?_, position_size h4 dy ?_⟩
      · show |(x : ℝ)| + |(v * T : ℝ)| + _ ≤ _
        generalize |(x : ℝ)| = u at *
        generalize |(v * T : ℝ)| = u' at *
        generalize |(v / w : ℝ)| = u'' at *
        clear * - hx1 hvT1 hQ1
        norm_num at *
        linarith
      · show |(y : ℝ)| + |(v * T : ℝ)| + _ ≤ _
        generalize |(y : ℝ)| = u at *
        generalize |(v * T : ℝ)| = u' at *
        generalize |(v / w : ℝ)| = u'' at *
        clear * - hy1 hvT1 hQ1
        norm_num at *
        linarith
  obtain ⟨X, Y, hX, hY, bX, bY⟩ := pos
  fin_cases j
  · rw [rotate_other (by decide)]
    show FiniteWithin (FP.conv binary32 (p.next (.fin T)).x) (2 ^ 27)
    rw [hX, show (2 : ℚ) ^ 27 = 2 * 2 ^ 26 by norm_num]
    exact conv_within bX le_rfl (by norm_num)
  · rw [rotate_other (by decide)]
    show FiniteWithin (FP.conv binary32 (p.next (.fin T)).y) (2 ^ 27)
    rw [hY, show (2 : ℚ) ^ 27 = 2 * 2 ^ 26 by norm_num]
    exact conv_within bY le_rfl (by norm_num)
  · rw [rotate_other (by decide)]
    show FiniteWithin (FP.conv binary32 p.v) (2 ^ 12)
    rw [hp.hv, show (2 : ℚ) ^ 12 = 2 * 2 ^ 11 by norm_num]
    exact conv_within hv (by norm_num) (by norm_num)
  · obtain ⟨b, h0, h1, h2, -⟩ := turn_dir hm' hp.ha (heading_seven ha ha') (hwT.trans (by norm_num))
    obtain ⟨c, -, r1, r2, -⟩ := rotate_entry (n := 5) (i := 3) (row := MotionModelF.toVec (MotionModelF.next p (.fin T))) rfl h1 h2
      (by rw [← h0, ← hp.hw]; rfl)
    exact ⟨c, r1, r2⟩
  · rw [rotate_other (by decide)]
    show FiniteWithin (FP.conv binary32 p.yawRate) (2 ^ 12)
    rw [hp.hw, show (2 : ℚ) ^ 12 = 2 * 2 ^ 11 by norm_num]
    exact conv_within hw (by norm_num) (by norm_num)

/-- sizes of the columns of a CTRA prediction -/
def ctraSize : Fin 6 → ℚ := ![2 ^ 27, 2 ^ 27, 2 ^ 20, 4, 2 ^ 12, 2 ^ 12]

theorem ctra_finite (hm : AccurateTrig m) (hm' : AccuratePhase m) {p : CtraStateF m} {x y v w acc a T : ℚ}
    (hp : FiniteCtra p x y v w acc a) (ha : 0 ≤ a) (ha' : (a : ℝ) < 2 * Real.pi) (hx : |x| ≤ 2 ^ 24) (hy : |y| ≤ 2 ^ 24)
    (hv : |v| ≤ 2 ^ 11) (hw : |w| ≤ 2 ^ 11) (hacc : |acc| ≤ 2 ^ 11) (hw' : w = 0 ∨ 1 / 2 ^ 14 ≤ |w|) (hT : |T| ≤ 2 ^ 6)
    (j : Fin 6) :
    FiniteWithin (rotateYawF (MotionModelF.toVec (MotionModelF.next p (.fin T))) j) (ctraSize j) := by
  have hvT : |v * T| ≤ 2 ^ 17 := by
    rw [abs_mul]
    exact (mul_le_mul hv hT (abs_nonneg _) (by norm_num)).trans (by norm_num)
  have hwT : |w * T| ≤ 2 ^ 17 := by
    rw [abs_mul]
    exact (mul_le_mul hw hT (abs_nonneg _) (by norm_num)).trans (by norm_num)
  have haT : |acc * T| ≤ 2 ^ 17 := by
    rw [abs_mul]
    exact (mul_le_mul hacc hT (abs_nonneg _) (by norm_num)).trans (by norm_num)
  have haTT : |acc * T * T| ≤ 2 ^ 23 := by
    rw [abs_mul]
    exact (mul_le_mul haT hT (abs_nonneg _) (by norm_num)).trans (by norm_num)
  have haTw : |acc * T * w| ≤ 2 ^ 28 := by
    rw [abs_mul]
    exact (mul_le_mul haT hw (abs_nonneg _) (by norm_num)).trans (by norm_num)
  have hvw : |v * w| ≤ 2 ^ 22 := by
    rw [abs_mul]
    exact (mul_le_mul hv hw (abs_nonneg _) (by norm_num)).trans (by norm_num)
  have hx1 := (Rat.cast_le (K := ℝ)).2 hx
  have hy1 := (Rat.cast_le (K := ℝ)).2 hy
  have hvT1 := (Rat.cast_le (K := ℝ)).2 hvT
  have haTT1 := (Rat.cast_le (K := ℝ)).2 haTT
  have haTw1 := (Rat.cast_le (K := ℝ)).2 haTw
  have hvw1 := (Rat.cast_le (K := ℝ)).2 hvw
  have hacc1 := (Rat.cast_le (K := ℝ)).2 hacc
  have hwT1 := (Rat.cast_le (K := ℝ)).2 hwT
  push_cast at hx1 hy1 hvT1 haTT1 haTw1 hvw1 hacc1 hwT1
  have hd := (C50_displacement_ctra ⟨x, y, v, Angle.ofRad a, w, acc⟩ T).1
  have ed : |(acc : ℝ)| * (T : ℝ) ^ 2 / 2 = |(acc * T * T : ℝ)| / 2 := by
    rw [abs_mul, abs_mul, mul_assoc, abs_mul_abs_self]
    ring
  have dx := (Real.abs_le_sqrt (le_add_of_nonneg_right (sq_nonneg _))).trans hd
  have dy := (Real.abs_le_sqrt (le_add_of_nonneg_left (sq_nonneg _))).trans hd
  simp only [ed] at dx dy
  have pos : ∃ X Y : ℚ, (p.next (.fin T)).x = .fin X ∧ (p.next (.fin T)).y = .fin Y ∧ |X| ≤ 2 ^ 26 ∧ |Y| ≤ 2 ^ 26 := by
    rcases hw' with rfl | hw'
    · obtain ⟨X, Y, h1, h2, h3, h4⟩ := C90_accuracy_straight hm p hp ha ha' (hx.trans (by norm_num)) (hy.trans (by norm_num))
        (by rw [abs_zero]; positivity) T (hT.trans (by norm_num)) (hv.trans (by norm_num)) (hacc.trans (by norm_num))
      refine ⟨X, Y, h1, h2, position_size h3 dx ?_, position_size h4 dy ?_⟩
      · generalize |(x : ℝ)| = u at *
        generalize |(v * T : ℝ)| = u' at *
        generalize |(acc * T * T : ℝ)| = u'' at *
        clear * - hx1 hvT1 haTT1
        norm_num at *
        linarith
      · generalize |(y : ℝ)| = u at *
        generalize |(v * T : ℝ)| = u' at *
        generalize |(acc * T * T : ℝ)| = u'' at *
        clear * - hy1 hvT1 haTT1
        norm_num at *
        linarith
    · obtain ⟨X, Y, h1, h2, h3, h4⟩ := C90_accuracy_turn hm hm' p hp ha ha' (hx.trans (by norm_num)) (hy.trans (by norm_num))
        (le_trans (by norm_num) hw') (hw.trans (by norm_num)) T (hwT.trans (by norm_num)) (by
          generalize |v * w| = u at *
          generalize |acc * T * w| = u' at *
          generalize |acc| = u'' at *
          clear * - hvw haTw hacc
          norm_num at *
          linarith)
      have hww : (1 : ℝ) / 2 ^ 28 ≤ w * w := by
        have h1 : (1 : ℝ) / 2 ^ 14 ≤ |(w : ℝ)| := by
          have := (Rat.cast_le (K := ℝ)).2 hw'
          push_cast at this
          exact this
        rw [← abs_mul_abs_self (w : ℝ)]
        exact le_trans (by norm_num) (mul_le_mul h1 h1 (by norm_num) (abs_nonneg _))
      have hM : (|(v * w : ℝ)| + |(acc * T * w : ℝ)| + |(acc : ℝ)| + 1 / 2 ^ 100) / (w * w) ≤ 2 ^ 57 := by
        rw [div_le_iff₀ (lt_of_lt_of_le (by norm_num) hww)]
        generalize |(v * w : ℝ)| = u at *
        generalize |(acc * T * w : ℝ)| = u' at *
        generalize |(acc : ℝ)| = u'' at *
        generalize (w * w : ℝ) = W at *
        clear * - hvw1 haTw1 hacc1 hww
        norm_num at *
        linarith
      have hE : (178 + 2 * |(w * T : ℝ)|) / 2 ^ 53 *
          ((|(v * w : ℝ)| + |(acc * T * w : ℝ)| + |(acc : ℝ)| + 1 / 2 ^ 100) / (w * w)) ≤ 2 ^ 19 / 2 ^ 53 * 2 ^ 57 := by
        refine mul_le_mul ?_ hM (by positivity) (by norm_num)
        generalize |(w * T : ℝ)| = u at *
        clear * - hwT1
        norm_num at *
        linarith
      refine ⟨X, Y, h1, h2, position_size h3 dx ?_, position_size h4 dy ?_⟩
      · generalize (178 + 2 * |(w * T : ℝ)|) / 2 ^ 53 *
          ((|(v * w : ℝ)| + |(acc * T * w : ℝ)| + |(acc : ℝ)| + 1 / 2 ^ 100) / (w * w)) = e at *
        generalize |(x : ℝ)| = u at *
        generalize |(v * T : ℝ)| = u' at *
        generalize |(acc * T * T : ℝ)| = u'' at *
        clear * - hx1 hvT1 haTT1 hE
        norm_num at *
        linarith
      · generalize (178 + 2 * |(w * T : ℝ)|) / 2 ^ 53 *
          ((|(v * w : ℝ)| + |(acc * T * w : ℝ)| + |(acc : ℝ)| + 1 / 2 ^ 100) / (w * w)) = e at *
        generalize |(y : ℝ)| = u at *
        generalize |(v * T : ℝ)| = u' at *
        generalize |(acc * T * T : ℝ)| = u'' at *
        clear * - hy1 hvT1 haTT1 hE
        norm_num at *
        linarith
  obtain ⟨X, Y, hX, hY, bX, bY⟩ := pos
  have speed : ∃ V : ℚ, (p.next (.fin T)).v = .fin V ∧ |V| ≤ 2 ^ 19 := by
    have e0 : (p.next (.fin T)).v = FP.add binary64 (.fin v) (FP.mul binary64 (.fin acc) (.fin T)) := by
      rw [← hp.hv, ← hp.hacc]; rfl
    have e1 : FP.mul binary64 (.fin acc) (.fin T) = .fin (binary64.round (acc * T)) := b64_ofRat (haT.trans (by norm_num))
    have b1 := abs_b64_le haT (by norm_num)
    have b2 : |v + binary64.round (acc * T)| ≤ 2 ^ 18 + 2 ^ 12 :=
      (abs_add_le _ _).trans (by norm_num at hv b1 ⊢; linarith)
    refine ⟨_, by rw [e0, e1]; exact b64_ofRat (b2.trans (by norm_num)), ?_⟩
    have e3 := b64_std (v + binary64.round (acc * T))
    generalize v + binary64.round (acc * T) = u at *
    have e4 := abs_add_le (binary64.round u - u) u
    rw [sub_add_cancel] at e4
    generalize |binary64.round u - u| = u' at *
    norm_num at *
    linarith
  obtain ⟨V, hV, bV⟩ := speed
  fin_cases j
  · rw [rotate_other (by decide)]
    show FiniteWithin (FP.conv binary32 (p.next (.fin T)).x) (2 ^ 27)
    rw [hX, show (2 : ℚ) ^ 27 = 2 * 2 ^ 26 by norm_num]
    exact conv_within bX le_rfl (by norm_num)
  · rw [rotate_other (by decide)]
    show FiniteWithin (FP.conv binary32 (p.next (.fin T)).y) (2 ^ 27)
    rw [hY, show (2 : ℚ) ^ 27 = 2 * 2 ^ 26 by norm_num]
    exact conv_within bY le_rfl (by norm_num)
  · rw [rotate_other (by decide)]
    show FiniteWithin (FP.conv binary32 (p.next (.fin T)).v) (2 ^ 20)
    rw [hV, show (2 : ℚ) ^ 20 = 2 * 2 ^ 19 by norm_num]
    exact conv_within bV (by norm_num) (by norm_num)
  · obtain ⟨b, h0, h1, h2, -⟩ := turn_dir hm' hp.ha (heading_seven ha ha') (hwT.trans (by norm_num))
    obtain ⟨c, -, r1, r2, -⟩ := rotate_entry (n := 6) (i := 3) (row := MotionModelF.toVec (MotionModelF.next p (.fin T))) rfl h1 h2
      (by rw [← h0, ← hp.hw]; rfl)
    exact ⟨c, r1, r2⟩
  · rw [rotate_other (by decide)]
    show FiniteWithin (FP.conv binary32 p.yawRate) (2 ^ 12)
    rw [hp.hw, show (2 : ℚ) ^ 12 = 2 * 2 ^ 11 by norm_num]
    exact conv_within hw (by norm_num) (by norm_num)
  · rw [rotate_other (by decide)]
    show FiniteWithin (FP.conv binary32 p.a) (2 ^ 12)
    rw [hp.hacc, show (2 : ℚ) ^ 12 = 2 * 2 ^ 11 by norm_num]
    exact conv_within hacc (by norm_num) (by norm_num)

end Mot.Props
