import Verif.Proofs.FloatHeading
import Verif.Props.FloatPredict
import Verif.Props.Motion
/-!
# The computed prediction against the exact unscented transform (C95)
-/

namespace Mot.Props

open Mot Spec

variable {m : Libm}

/-- bound for the error of a predicted mean: `B` is the size of the values, `ρ` the error that the
motion model adds -/
noncomputable def meanErr (n : ℕ) (Λ B ρ : ℝ) : ℝ :=
  utCond n Λ * ((2 * n + 10) / 2 ^ 24 * B + 2 * ρ + 1 / 2 ^ 80)

/-- bound for the error of a predicted covariance: `D`, `D'` are the largest distances of the values
from the mean, `τ`, `τ'` twice the errors of the means -/
noncomputable def covErr (n : ℕ) (a b Λ D τ D' τ' : ℝ) : ℝ :=
  utCovCond n a b Λ * ((2 * n + 11) / 2 ^ 24 * ((D + τ) * (D' + τ')) +
    2 * ((D + τ) * (D' + τ') - D * D')) + 1 / 2 ^ 69

theorem conv_row {X : ℚ} {Y : ℝ} {B η : ℚ} (h : |(X : ℝ) - Y| ≤ η) (hY : |Y| ≤ B) (hB : B ≤ 2 ^ 60)
    (hη : η ≤ 2 ^ 60) : ∃ c : ℚ, FP.conv binary32 (.fin X) = .fin c ∧
      |c| ≤ B + (B / 2 ^ 24 + 2 * η + 1 / 2 ^ 149) ∧ |(c : ℝ) - Y| ≤ B / 2 ^ 24 + 2 * η + 1 / 2 ^ 149 := by
  have hX : |X| ≤ B + η := by
    have h1 := abs_add_le ((X : ℝ) - Y) Y
    rw [sub_add_cancel] at h1
    have h2 : |(X : ℝ)| ≤ (B + η : ℚ) := by push_cast; linarith
    exact_mod_cast h2
  have hη0 : (0 : ℝ) ≤ η := (abs_nonneg _).trans h
  refine ⟨_, b32_ofRat (hX.trans (by norm_num at hB hη ⊢; linarith)), ?_⟩
  have e1 := b32_std X
  have e2 : |binary32.round X - X| ≤ (B + η) / 2 ^ 24 + 1 / 2 ^ 150 := e1.trans (by gcongr)
  have e3 := (Rat.cast_le (K := ℝ)).2 e2
  push_cast at e3
  have e4 := abs_sub_le ((binary32.round X : ℚ) : ℝ) X Y
  have e5 : |((binary32.round X : ℚ) : ℝ) - Y| ≤ B / 2 ^ 24 + 2 * η + 1 / 2 ^ 149 := by
    generalize ((binary32.round X : ℚ) : ℝ) - X = u at *
    norm_num at e3 ⊢
    linarith
  refine ⟨?_, e5⟩
  have e6 := abs_add_le (((binary32.round X : ℚ) : ℝ) - Y) Y
  rw [sub_add_cancel] at e6
  have e7 : |((binary32.round X : ℚ) : ℝ)| ≤ ((B + (B / 2 ^ 24 + 2 * η + 1 / 2 ^ 149) : ℚ) : ℝ) := by
    push_cast
    linarith
  exact_mod_cast e7

theorem utCond_ge_one {n : ℕ} {Λ : ℝ} (h : (n : ℝ) + Λ ≠ 0) : 1 ≤ utCond n Λ := by
  unfold utCond
  rw [one_le_div (abs_pos.2 h)]
  have := abs_add_le (n : ℝ) Λ
  rw [Nat.abs_cast] at this
  linarith

section
variable {n : ℕ} {a b Λ : ℚ} {B ρ : Fin n → ℚ} {rows : List (Fin n → FP)} {Y0 : Fin n → ℝ}
  {Ys : List (Fin n → ℝ)}

theorem prediction_mean (hn : 1 ≤ n) (hn' : n ≤ 100) (hL : |Λ| ≤ 2 ^ 20) (hD : 1 / 2 ^ 40 ≤ |n + Λ|)
    (hB0 : ∀ j, 0 ≤ B j) (hB : ∀ j, B j ≤ 2 ^ 38) (hρ0 : ∀ j, 0 ≤ ρ j) (hρ : ∀ j, ρ j ≤ 2 ^ 38)
    (hl : Ys.length = 2 * n)
    (h : List.Forall₂ (RowNear (fun j => B j + (B j / 2 ^ 22 + ρ j + 1 / 2 ^ 90))
      (fun j => ((B j / 2 ^ 22 + ρ j + 1 / 2 ^ 90 : ℚ) : ℝ))) rows (Y0 :: Ys))
    (α β : FP) {j : Fin n} {x : FP} (hx : IsMeanF (weightsF n α β (.fin Λ)).1 (rows.map (· j)) x) :
    ∃ q : ℚ, x = .fin q ∧ |(q : ℝ) - utMean n Λ (Y0 j) (Ys.map (· j))| ≤ meanErr n Λ (B j) (ρ j) := by
  obtain ⟨q, hq, e⟩ := rows_mean hn hn' hL hD (fun j => by
    have h1 := hB j
    have h2 := hρ j
    norm_num at h1 h2 ⊢
    linarith) hl h α β hx
  refine ⟨q, hq, e.trans ?_⟩
  have hDp : 0 < |(n : ℚ) + Λ| := lt_of_lt_of_le (by norm_num) hD
  have hK := utCond_ge_one (n := n) (Λ := Λ) (by exact_mod_cast abs_pos.1 hDp)
  unfold meanErr
  generalize utCond n Λ = K at *
  have hn1 : (n : ℝ) ≤ 100 := by exact_mod_cast hn'
  have hB1 : (0 : ℝ) ≤ B j := by exact_mod_cast hB0 j
  have hρ1 : (0 : ℝ) ≤ ρ j := by exact_mod_cast hρ0 j
  push_cast
  generalize (B j : ℝ) = β at *
  generalize (ρ j : ℝ) = r at *
  have key : (2 * (n : ℝ) + 5) / 2 ^ 24 * (β + (β / 2 ^ 22 + r + 1 / 2 ^ 90)) + (β / 2 ^ 22 + r + 1 / 2 ^ 90) +
      1 / 2 ^ 100 ≤ (2 * n + 10) / 2 ^ 24 * β + 2 * r + 1 / 2 ^ 80 := by
    have n1 : (n : ℝ) * (β / 2 ^ 22 + r + 1 / 2 ^ 90) ≤ 100 * (β / 2 ^ 22 + r + 1 / 2 ^ 90) :=
      mul_le_mul_of_nonneg_right hn1 (by positivity)
    rw [show (2 * (n : ℝ) + 5) / 2 ^ 24 * (β + (β / 2 ^ 22 + r + 1 / 2 ^ 90)) =
      (2 * n + 5) / 2 ^ 24 * β + (2 * (n * (β / 2 ^ 22 + r + 1 / 2 ^ 90)) + 5 * (β / 2 ^ 22 + r + 1 / 2 ^ 90)) / 2 ^ 24 by ring,
      show (2 * (n : ℝ) + 10) / 2 ^ 24 * β = (2 * n + 5) / 2 ^ 24 * β + 5 / 2 ^ 24 * β by ring]
    generalize (n : ℝ) * (β / 2 ^ 22 + r + 1 / 2 ^ 90) = y at *
    generalize (2 * (n : ℝ) + 5) / 2 ^ 24 * β = y' at *
    norm_num at n1 ⊢
    linarith
  refine le_trans ?_ (mul_le_mul_of_nonneg_left key (by linarith))
  rw [mul_add K _ (1 / 2 ^ 100)]
  have : 1 * (1 / 2 ^ 100 : ℝ) ≤ K * (1 / 2 ^ 100) := mul_le_mul_of_nonneg_right hK (by norm_num)
  linarith

theorem prediction_cov (hn : 1 ≤ n) (hn' : n ≤ 100) (ha : |a| ≤ 2 ^ 14) (hb : |b| ≤ 2 ^ 28)
    (hL : |Λ| ≤ 2 ^ 20) (hD : 1 / 2 ^ 8 ≤ |n + Λ|) (hB0 : ∀ j, 0 ≤ B j) (hB : ∀ j, B j ≤ 2 ^ 27)
    (hρ0 : ∀ j, 0 ≤ ρ j) (hρ : ∀ j, ρ j ≤ 2 ^ 27) (hl : Ys.length = 2 * n)
    (h : List.Forall₂ (RowNear (fun j => B j + (B j / 2 ^ 22 + ρ j + 1 / 2 ^ 90))
      (fun j => ((B j / 2 ^ 22 + ρ j + 1 / 2 ^ 90 : ℚ) : ℝ))) rows (Y0 :: Ys))
    {j k : Fin n} {qj qk : ℚ} {D : Fin n → ℝ}
    (hqj : |(qj : ℝ) - utMean n Λ (Y0 j) (Ys.map (· j))| ≤ meanErr n Λ (B j) (ρ j))
    (hqk : |(qk : ℝ) - utMean n Λ (Y0 k) (Ys.map (· k))| ≤ meanErr n Λ (B k) (ρ k))
    (hDj : ∀ Y ∈ Y0 :: Ys, ∀ j, |Y j - utMean n Λ (Y0 j) (Ys.map (· j))| ≤ D j)
    (hDM : ∀ j, D j + 2 * meanErr n Λ (B j) (ρ j) ≤ 2 ^ 29) {p : FP}
    (hp : IsCovF (weightsF n (.fin a) (.fin b) (.fin Λ)).2 (rows.map (· j)) (rows.map (· k))
      (.fin qj) (.fin qk) p) :
    ∃ r : ℚ, p = .fin r ∧
      |(r : ℝ) - utCov n a b Λ (Y0 j) (Ys.map (· j)) (Y0 k) (Ys.map (· k))| ≤
        covErr n a b Λ (D j) (2 * meanErr n Λ (B j) (ρ j)) (D k) (2 * meanErr n Λ (B k) (ρ k)) := by
  have hDp : 0 < |(n : ℚ) + Λ| := lt_of_lt_of_le (by norm_num) hD
  have hK := utCond_ge_one (n := n) (Λ := Λ) (by exact_mod_cast abs_pos.1 hDp)
  have hτ : ∀ j, ((B j / 2 ^ 22 + ρ j + 1 / 2 ^ 90 : ℚ) : ℝ) + meanErr n Λ (B j) (ρ j) ≤
      2 * meanErr n Λ (B j) (ρ j) := by
    intro j
    have hB1 : (0 : ℝ) ≤ B j := by exact_mod_cast hB0 j
    have hρ1 : (0 : ℝ) ≤ ρ j := by exact_mod_cast hρ0 j
    have hn0 : (0 : ℝ) ≤ n := by positivity
    push_cast
    have k1 : (B j : ℝ) / 2 ^ 22 + ρ j + 1 / 2 ^ 90 ≤ (2 * n + 10) / 2 ^ 24 * B j + 2 * ρ j + 1 / 2 ^ 80 := by
      have k2 : 0 ≤ (n : ℝ) * B j := by positivity
      rw [show (2 * (n : ℝ) + 10) / 2 ^ 24 * B j = (2 * (n * B j) + 10 * B j) / 2 ^ 24 by ring]
      generalize (n : ℝ) * B j = y at *
      norm_num
      linarith
    have k2 : 0 ≤ (2 * n + 10) / 2 ^ 24 * (B j : ℝ) + 2 * ρ j + 1 / 2 ^ 80 := by positivity
    have k3 := mul_le_mul_of_nonneg_right hK k2
    unfold meanErr
    linarith
  exact rows_cov hn hn' ha hb hL hD (fun j => by
    have h1 := hB j
    have h2 := hρ j
    norm_num at h1 h2 ⊢
    linarith) hl h hqj hqk (hτ j) (hτ k) (fun Y hY => hDj Y hY j) (fun Y hY => hDj Y hY k)
    (hDM j) (hDM k) hp

end

theorem forall₂_mem {α β : Type} {p q : α → β → Prop} {l : List α} {r : List β} (h : List.Forall₂ p l r)
    (hpq : ∀ a b, a ∈ l → b ∈ r → p a b → q a b) : List.Forall₂ q l r := by
  induction h with
  | nil => exact .nil
  | cons h _ ih =>
    exact .cons (hpq _ _ List.mem_cons_self List.mem_cons_self h)
      (ih fun a b ha hb => hpq a b (List.mem_cons_of_mem _ ha) (List.mem_cons_of_mem _ hb))

/-- from points to rows -/
theorem rows_near {S R : Type} {n : ℕ} [MotionModelF S n] {s : S} {L : Matrix (Fin n) (Fin n) FP} {dt lam : FP}
    {B : Fin n → ℚ} {ε : Fin n → ℝ} {row : R → Fin n → ℝ} {r0 : R} {rs : List R}
    (h : List.Forall₂ (fun p r => RowNear B ε (rotateYawF (MotionModelF.toVec (MotionModelF.next p dt))) (row r))
      (s :: sigmaPointsF s L lam) (r0 :: rs)) :
    List.Forall₂ (RowNear B ε) (predictedRowsF s L dt lam) (row r0 :: rs.map row) ∧ (rs.map row).length = 2 * n := by
  have h1 : List.Forall₂ (RowNear B ε) (predictedRowsF s L dt lam) (row r0 :: rs.map row) := by
    have e : predictedRowsF s L dt lam = (s :: sigmaPointsF s L lam).map
        fun p => rotateYawF (MotionModelF.toVec (MotionModelF.next p dt)) := by
      simp [predictedRowsF]
    rw [e, ← List.map_cons, List.forall₂_map_left_iff, List.forall₂_map_right_iff]
    exact h
  refine ⟨h1, ?_⟩
  have := h1.length_eq
  rw [rows_length, List.length_cons] at this
  omega

section
variable {S R : Type} {n : ℕ} [MotionModelF S n] {s s' : S} {L P' : Matrix (Fin n) (Fin n) FP} {dt β : FP}
  {a b Λ : ℚ} {B ρ : Fin n → ℚ} {row : R → Fin n → ℝ} {r0 : R} {rs : List R}

theorem transform_mean (hn : 1 ≤ n) (hn' : n ≤ 100) {α κ : FP} (hΛ : lambdaF n α β = .fin Λ) (hL : |Λ| ≤ 2 ^ 20)
    (hD : 1 / 2 ^ 40 ≤ |n + Λ|)
    (hB0 : ∀ j, 0 ≤ B j) (hB : ∀ j, B j ≤ 2 ^ 38) (hρ0 : ∀ j, 0 ≤ ρ j) (hρ : ∀ j, ρ j ≤ 2 ^ 38)
    (hp : List.Forall₂ (fun p r => RowNear (fun j => B j + (B j / 2 ^ 22 + ρ j + 1 / 2 ^ 90))
      (fun j => ((B j / 2 ^ 22 + ρ j + 1 / 2 ^ 90 : ℚ) : ℝ))
      (rotateYawF (MotionModelF.toVec (MotionModelF.next p dt))) (row r))
      (s :: sigmaPointsF s L (.fin Λ)) (r0 :: rs))
    (h : IsTransformF α β κ s L dt s' P') :
    ∃ q : Fin n → ℚ, s' = MotionModelF.ofVec (fun j => .fin (q j)) ∧
      (∀ j, FP.conv binary64 (.fin (q j)) = .fin (q j)) ∧
      (∀ j, |(q j : ℝ) - utMean n Λ (row r0 j) (rs.map (row · j))| ≤ meanErr n Λ (B j) (ρ j)) ∧
      ∀ j k, IsCovF (weightsF n α κ (.fin Λ)).2 ((predictedRowsF s L dt (.fin Λ)).map (· j))
        ((predictedRowsF s L dt (.fin Λ)).map (· k)) (.fin (q j)) (.fin (q k)) (P' j k) := by
  obtain ⟨x, hx, hc, rfl⟩ := h
  simp only [hΛ] at hx hc
  obtain ⟨h1, h2⟩ := rows_near hp
  choose q hq e using fun j => prediction_mean hn hn' hL hD hB0 hB hρ0 hρ h2 h1 α κ (hx j)
  have ex : x = fun j => .fin (q j) := funext hq
  refine ⟨q, by rw [ex], fun j => ((hx j).isFloat (hq j)).conv64, fun j => ?_, fun j k => ?_⟩
  · have := e j
    rw [List.map_map] at this
    exact this
  · have := hc j k
    rwa [hq j, hq k] at this

theorem transform_cov (hn : 1 ≤ n) (hn' : n ≤ 100) (hΛ : lambdaF n (.fin a) β = .fin Λ) (ha : |a| ≤ 2 ^ 14)
    (hb : |b| ≤ 2 ^ 28) (hL : |Λ| ≤ 2 ^ 20) (hD : 1 / 2 ^ 8 ≤ |n + Λ|)
    (hB0 : ∀ j, 0 ≤ B j) (hB : ∀ j, B j ≤ 2 ^ 27) (hρ0 : ∀ j, 0 ≤ ρ j) (hρ : ∀ j, ρ j ≤ 2 ^ 27)
    (hp : List.Forall₂ (fun p r => RowNear (fun j => B j + (B j / 2 ^ 22 + ρ j + 1 / 2 ^ 90))
      (fun j => ((B j / 2 ^ 22 + ρ j + 1 / 2 ^ 90 : ℚ) : ℝ))
      (rotateYawF (MotionModelF.toVec (MotionModelF.next p dt))) (row r))
      (s :: sigmaPointsF s L (.fin Λ)) (r0 :: rs)) {D : Fin n → ℝ}
    (hDj : ∀ r ∈ r0 :: rs, ∀ j, |row r j - utMean n Λ (row r0 j) (rs.map (row · j))| ≤ D j)
    (hDM : ∀ j, D j + 2 * meanErr n Λ (B j) (ρ j) ≤ 2 ^ 29)
    (h : IsTransformF (.fin a) β (.fin b) s L dt s' P') (j k : Fin n) :
    ∃ p : ℚ, P' j k = .fin p ∧
      |(p : ℝ) - utCov n a b Λ (row r0 j) (rs.map (row · j)) (row r0 k) (rs.map (row · k))| ≤
        covErr n a b Λ (D j) (2 * meanErr n Λ (B j) (ρ j)) (D k) (2 * meanErr n Λ (B k) (ρ k)) := by
  obtain ⟨q, -, -, e, hc⟩ := transform_mean hn hn' hΛ hL (le_trans (by norm_num) hD) hB0
    (fun j => (hB j).trans (by norm_num)) hρ0 (fun j => (hρ j).trans (by norm_num)) hp h
  obtain ⟨h1, h2⟩ := rows_near hp
  have mm : ∀ j, (rs.map row).map (· j) = rs.map (row · j) := fun j => by rw [List.map_map]; rfl
  have := prediction_cov (j := j) (k := k) (D := D) hn hn' ha hb hL hD hB0 hB hρ0 hρ h2 h1
    (by rw [mm]; exact e j) (by rw [mm]; exact e k) (by
      intro Y hY j
      rw [← List.map_cons] at hY
      obtain ⟨r, hr, rfl⟩ := List.mem_map.1 hY
      rw [mm]
      exact hDj r hr j) hDM (hc j k)
  rw [mm, mm] at this
  exact this

end

/-! ### The CTRV model -/

/-- numbers of a point: the members of a state, and its heading after the step as a number `t` -/
structure CtrvPoint where
  x : ℚ
  y : ℚ
  v : ℚ
  w : ℚ
  a : ℚ
  t : ℝ

/-- the exact state of a point -/
noncomputable def CtrvPoint.state (r : CtrvPoint) : CtrvState := ⟨r.x, r.y, r.v, Angle.ofRad r.a, r.w⟩

/-- the exact prediction of a point -/
noncomputable def CtrvPoint.row (r : CtrvPoint) (T : ℝ) : Fin 5 → ℝ :=
  ![(r.state.next T).x, (r.state.next T).y, r.v, r.t, r.w]

/-- sizes of the numbers of a point; `R` bounds the radius of the turn.  The heading after the step
is between -3.14 and 3.14. -/
structure CtrvPoint.Bounded (r : CtrvPoint) (T : ℚ) (B : Fin 5 → ℚ) (R : ℚ) : Prop where
  ha : 0 ≤ r.a
  ha' : (r.a : ℝ) < 2 * Real.pi
  hx : |r.x| + |r.v * T| ≤ B 0
  hy : |r.y| + |r.v * T| ≤ B 1
  hv : |r.v| ≤ B 2
  hw : |r.w| ≤ B 4
  ht : |r.t| ≤ 314 / 100
  turn : ∃ k : ℤ, r.t = r.a + r.w * T + k * (2 * Real.pi)
  hΘ : |r.w * T| ≤ 2 ^ 19
  hR : |r.w| < (2 : ℚ) ^ (-1022 : ℤ) ∨ |r.v / r.w| ≤ R

/-- the error that the motion model adds -/
def ctrvRho (R : ℚ) : Fin 5 → ℚ := ![R / 2 ^ 47, R / 2 ^ 47, 0, 0, 0]

theorem ctrv_row (hm : AccurateTrig m) (hm' : AccuratePhase m) {p : CtrvStateF m} {r : CtrvPoint} {T R : ℚ}
    {B : Fin 5 → ℚ} (hp : CtrvFields p r.x r.y r.v r.w r.a) (hr : r.Bounded T B R) (hB3 : B 3 = 4)
    (hB : ∀ j, B j ≤ 2 ^ 38) (hR0 : 0 ≤ R) (hR : R ≤ 2 ^ 80) (hT : |T| ≤ 2 ^ 40) :
    RowNear (fun j => B j + (B j / 2 ^ 22 + ctrvRho R j + 1 / 2 ^ 90))
      (fun j => ((B j / 2 ^ 22 + ctrvRho R j + 1 / 2 ^ 90 : ℚ) : ℝ))
      (rotateYawF (MotionModelF.toVec (MotionModelF.next p (.fin T)))) (r.row T) := by
  have ha7 : |r.a| ≤ 7 := by
    rw [abs_of_nonneg hr.ha]
    have := Real.pi_lt_d2
    have h2 := hr.ha'
    have : (r.a : ℝ) ≤ 7 := by linarith
    exact_mod_cast this
  have n1 := abs_nonneg r.x
  have n2 := abs_nonneg r.y
  have n3 := abs_nonneg (r.v * T)
  have hB0 := hB 0
  have hB1 := hB 1
  have hB2 := hB 2
  -- positions
  have pos : ∃ X Y : ℚ, (p.next (.fin T)).x = .fin X ∧ (p.next (.fin T)).y = .fin Y ∧
      |(X : ℝ) - (r.state.next T).x| ≤ ((8 * B 0 / 2 ^ 53 + R / 2 ^ 48 + 1 / 2 ^ 96 : ℚ) : ℝ) ∧
      |(Y : ℝ) - (r.state.next T).y| ≤ ((8 * B 1 / 2 ^ 53 + R / 2 ^ 48 + 1 / 2 ^ 96 : ℚ) : ℝ) := by
    have hx1 := (Rat.cast_le (K := ℝ)).2 hr.hx
    have hy1 := (Rat.cast_le (K := ℝ)).2 hr.hy
    push_cast at hx1 hy1 ⊢
    have m1 := abs_nonneg (r.x : ℝ)
    have m2 := abs_nonneg (r.y : ℝ)
    have m3 := abs_nonneg (r.v * T : ℝ)
    have hR0' : (0 : ℝ) ≤ R := by exact_mod_cast hR0
    have hbx : |r.x| ≤ 2 ^ 200 := by norm_num at hB0 ⊢; linarith [hr.hx]
    have hby : |r.y| ≤ 2 ^ 200 := by norm_num at hB1 ⊢; linarith [hr.hy]
    rcases lt_or_ge |r.w| ((2 : ℚ) ^ (-1022 : ℤ)) with hw | hw
    · obtain ⟨X, Y, h1, h2, h3, h4⟩ := C89_accuracy_straight p hm hp hr.ha hr.ha' hbx hby hw
        (hr.hv.trans (hB2.trans (by norm_num))) T (hT.trans (by norm_num))
      refine ⟨X, Y, h1, h2, h3.trans ?_, h4.trans ?_⟩
      · generalize |(r.x : ℝ)| = u at *
        generalize |(r.v * T : ℝ)| = u' at *
        clear * - hx1 m1 m3 hR0'
        norm_num
        linarith
      · generalize |(r.y : ℝ)| = u at *
        generalize |(r.v * T : ℝ)| = u' at *
        clear * - hy1 m2 m3 hR0'
        norm_num
        linarith
    · have hQ := hr.hR.resolve_left (not_lt.2 hw)
      have hQ1 := (Rat.cast_le (K := ℝ)).2 hQ
      push_cast at hQ1
      obtain ⟨X, Y, h1, h2, h3, h4⟩ := C89_accuracy_turn p hm hp hr.ha hr.ha' hbx hby hw
        (hQ.trans (hR.trans (by norm_num))) T hr.hΘ
      refine ⟨X, Y, h1, h2, h3.trans ?_, h4.trans ?_⟩
      · generalize |(r.x : ℝ)| = u at *
        generalize |(r.v * T : ℝ)| = u' at *
        generalize |(r.v / r.w : ℝ)| = u'' at *
        clear * - hx1 m1 m3 hQ1
        norm_num
        linarith
      · generalize |(r.y : ℝ)| = u at *
        generalize |(r.v * T : ℝ)| = u' at *
        generalize |(r.v / r.w : ℝ)| = u'' at *
        clear * - hy1 m2 m3 hQ1
        norm_num
        linarith
  have size : |(r.state.next T).x| ≤ B 0 ∧ |(r.state.next T).y| ≤ B 1 := by
    have hd := (C50_displacement r.state T).1
    have hx1 := (Rat.cast_le (K := ℝ)).2 hr.hx
    have hy1 := (Rat.cast_le (K := ℝ)).2 hr.hy
    push_cast at hx1 hy1
    have dx : |(r.state.next T).x - r.x| ≤ |(r.v * T : ℝ)| :=
      (Real.abs_le_sqrt (le_add_of_nonneg_right (sq_nonneg _))).trans hd
    have dy : |(r.state.next T).y - r.y| ≤ |(r.v * T : ℝ)| :=
      (Real.abs_le_sqrt (le_add_of_nonneg_left (sq_nonneg _))).trans hd
    constructor
    · have := abs_add_le ((r.state.next T).x - r.x) r.x
      rw [sub_add_cancel] at this
      linarith
    · have := abs_add_le ((r.state.next T).y - r.y) r.y
      rw [sub_add_cancel] at this
      linarith
  obtain ⟨X, Y, hX, hY, eX, eY⟩ := pos
  have other : ∀ {row : Fin 5 → FP} {j : Fin 5}, j.1 ≠ 3 → rotateYawF row j = row j := by
    intro row j hj
    unfold rotateYawF
    rw [if_neg (fun h => hj h.1)]
  have posn : ∀ {j : Fin 5} {X : ℚ} {Y : ℝ}, ctrvRho R j = R / 2 ^ 47 →
      |(X : ℝ) - Y| ≤ ((8 * B j / 2 ^ 53 + R / 2 ^ 48 + 1 / 2 ^ 96 : ℚ) : ℝ) → |Y| ≤ B j →
      ∃ c : ℚ, FP.conv binary32 (.fin X) = .fin c ∧ |c| ≤ B j + (B j / 2 ^ 22 + ctrvRho R j + 1 / 2 ^ 90) ∧
        |(c : ℝ) - Y| ≤ ((B j / 2 ^ 22 + ctrvRho R j + 1 / 2 ^ 90 : ℚ) : ℝ) := by
    intro j X Y hρ h1 h2
    have hb := hB j
    have hb0 : (0 : ℝ) ≤ B j := (abs_nonneg _).trans h2
    have hb0' : 0 ≤ B j := by exact_mod_cast hb0
    obtain ⟨c, c1, c2, c3⟩ := conv_row h1 h2 (hb.trans (by norm_num)) (by
      norm_num at hb hR ⊢
      linarith)
    have key : B j / 2 ^ 24 + 2 * (8 * B j / 2 ^ 53 + R / 2 ^ 48 + 1 / 2 ^ 96) + 1 / 2 ^ 149 ≤
        B j / 2 ^ 22 + ctrvRho R j + 1 / 2 ^ 90 := by
      rw [hρ]
      norm_num
      linarith
    refine ⟨c, c1, c2.trans (by linarith), ?_⟩
    have key' := (Rat.cast_le (K := ℝ)).2 key
    refine le_trans ?_ key'
    push_cast at c3 ⊢
    exact c3
  have kept : ∀ {j : Fin 5} {X : ℚ}, ctrvRho R j = 0 → |X| ≤ B j →
      ∃ c : ℚ, FP.conv binary32 (.fin X) = .fin c ∧ |c| ≤ B j + (B j / 2 ^ 22 + ctrvRho R j + 1 / 2 ^ 90) ∧
        |(c : ℝ) - X| ≤ ((B j / 2 ^ 22 + ctrvRho R j + 1 / 2 ^ 90 : ℚ) : ℝ) := by
    intro j X hρ h1
    have hb0 : 0 ≤ B j := (abs_nonneg _).trans h1
    have h1' : |(X : ℝ)| ≤ B j := by exact_mod_cast h1
    obtain ⟨c, c1, c2, c3⟩ := conv_row (η := 0) (Y := (X : ℝ)) (X := X) (by simp) h1' ((hB j).trans (by norm_num)) (by norm_num)
    have key : B j / 2 ^ 24 + 2 * 0 + 1 / 2 ^ 149 ≤ B j / 2 ^ 22 + ctrvRho R j + 1 / 2 ^ 90 := by
      rw [hρ]
      norm_num
      linarith
    refine ⟨c, c1, c2.trans (by linarith), ?_⟩
    have key' := (Rat.cast_le (K := ℝ)).2 key
    refine le_trans ?_ key'
    push_cast at c3 ⊢
    exact c3
  have hρ3 : ctrvRho R 3 = 0 := rfl
  intro j
  fin_cases j
  · rw [other (by decide)]
    show ∃ c : ℚ, FP.conv binary32 (p.next (.fin T)).x = _ ∧ _
    rw [hX]
    exact posn rfl eX size.1
  · rw [other (by decide)]
    show ∃ c : ℚ, FP.conv binary32 (p.next (.fin T)).y = _ ∧ _
    rw [hY]
    exact posn rfl eY size.2
  · rw [other (by decide)]
    show ∃ c : ℚ, FP.conv binary32 p.v = _ ∧ _
    rw [hp.hv]
    exact kept rfl hr.hv
  · obtain ⟨c, c1, c2, c3⟩ := heading_entry hm' (n := 5) (i := 3) rfl
      (row := MotionModelF.toVec (MotionModelF.next p (.fin T))) hp.ha ha7 hr.hΘ hr.ht hr.turn
      (by rw [← hp.hw]; rfl)
    refine ⟨c, c1, ?_, c3.trans ?_⟩
    · show |c| ≤ B 3 + (B 3 / 2 ^ 22 + ctrvRho R 3 + 1 / 2 ^ 90)
      rw [hB3, hρ3]
      norm_num
      linarith
    · show _ ≤ ((B 3 / 2 ^ 22 + ctrvRho R 3 + 1 / 2 ^ 90 : ℚ) : ℝ)
      rw [hB3, hρ3]
      norm_num
  · rw [other (by decide)]
    show ∃ c : ℚ, FP.conv binary32 p.yawRate = _ ∧ _
    rw [hp.hw]
    exact kept rfl hr.hw

theorem ctrvRho_nonneg {R : ℚ} (h : 0 ≤ R) (j : Fin 5) : 0 ≤ ctrvRho R j := by
  fin_cases j <;> simp [ctrvRho] <;> positivity

theorem ctrvRho_le {R : ℚ} (h : 0 ≤ R) (j : Fin 5) : ctrvRho R j ≤ R / 2 ^ 47 := by
  fin_cases j <;> simp [ctrvRho] <;> positivity

theorem CtrvPoint.Bounded.pos {r : CtrvPoint} {T R : ℚ} {B : Fin 5 → ℚ} (h : r.Bounded T B R) (h3 : B 3 = 4)
    (j : Fin 5) : 0 ≤ B j := by
  have n1 := abs_nonneg r.x
  have n2 := abs_nonneg r.y
  have n3 := abs_nonneg (r.v * T)
  fin_cases j
  · exact (by linarith [h.hx] : 0 ≤ B 0)
  · exact (by linarith [h.hy] : 0 ≤ B 1)
  · exact (abs_nonneg _).trans h.hv
  · exact (by rw [h3]; norm_num : 0 ≤ B 3)
  · exact (abs_nonneg _).trans h.hw

section
variable {β : FP} {a b Λ T R : ℚ} {s s' : CtrvStateF m} {L P' : Matrix (Fin 5) (Fin 5) FP} {B : Fin 5 → ℚ}
  {r0 : CtrvPoint} {rs : List CtrvPoint}

/-- C95: the predicted state of a CTRV object is the weighted mean of the exact predictions of the
object and its sigma points, up to `meanErr` in each component: position, speed, heading, turn
rate.  The points are the computed ones, `rs` holds their numbers; their headings after the step are
between -3.14 and 3.14.  -/
theorem C95_mean_ctrv (hm : AccurateTrig m) (hm' : AccuratePhase m) {α κ : FP} (hΛ : lambdaF 5 α β = .fin Λ)
    (hL : |Λ| ≤ 2 ^ 20) (hD : 1 / 2 ^ 40 ≤ |5 + Λ|)
    (hp : List.Forall₂ (fun p r => CtrvFields p r.x r.y r.v r.w r.a) (s :: sigmaPointsF s L (.fin Λ)) (r0 :: rs))
    (hr : ∀ r ∈ r0 :: rs, r.Bounded T B R) (hB3 : B 3 = 4) (hB : ∀ j, B j ≤ 2 ^ 38) (hR0 : 0 ≤ R)
    (hR : R ≤ 2 ^ 80) (hT : |T| ≤ 2 ^ 40) (h : IsTransformF α β κ s L (.fin T) s' P') :
    ∃ q : Fin 5 → ℚ, s' = ⟨.fin (q 0), .fin (q 1), .fin (q 2), m.ofRad (.fin (q 3)), .fin (q 4)⟩ ∧
      ∀ j, |(q j : ℝ) - utMean 5 Λ (r0.row T j) (rs.map (·.row T j))| ≤
        meanErr 5 Λ (B j) (ctrvRho R j) := by
  have hp' : List.Forall₂ (fun p (r : CtrvPoint) => RowNear (fun j => B j + (B j / 2 ^ 22 + ctrvRho R j + 1 / 2 ^ 90))
      (fun j => ((B j / 2 ^ 22 + ctrvRho R j + 1 / 2 ^ 90 : ℚ) : ℝ))
      (rotateYawF (MotionModelF.toVec (MotionModelF.next p (.fin T)))) (r.row T))
      (s :: sigmaPointsF s L (.fin Λ)) (r0 :: rs) :=
    forall₂_mem hp fun p r _ h2 h3 => ctrv_row hm hm' h3 (hr r h2) hB3 hB hR0 hR hT
  obtain ⟨q, h1, h2, h3, -⟩ := transform_mean (by norm_num) (by norm_num) hΛ hL (by simpa using hD)
    ((hr r0 List.mem_cons_self).pos hB3) hB (ctrvRho_nonneg hR0)
    (fun j => (ctrvRho_le hR0 j).trans (by norm_num at hR ⊢; linarith)) hp' h
  refine ⟨q, ?_, h3⟩
  rw [h1]
  show CtrvStateF.mk _ _ _ _ _ = _
  simp only [h2]

/-- C95: likewise the predicted covariance, up to `covErr`; `D` bounds the distances of the exact
predictions from their mean. -/
theorem C95_cov_ctrv (hm : AccurateTrig m) (hm' : AccuratePhase m) (hΛ : lambdaF 5 (.fin a) β = .fin Λ)
    (ha : |a| ≤ 2 ^ 14) (hb : |b| ≤ 2 ^ 28) (hL : |Λ| ≤ 2 ^ 20) (hD : 1 / 2 ^ 8 ≤ |5 + Λ|)
    (hp : List.Forall₂ (fun p r => CtrvFields p r.x r.y r.v r.w r.a) (s :: sigmaPointsF s L (.fin Λ)) (r0 :: rs))
    (hr : ∀ r ∈ r0 :: rs, r.Bounded T B R) (hB3 : B 3 = 4) (hB : ∀ j, B j ≤ 2 ^ 27) (hR0 : 0 ≤ R)
    (hR : R ≤ 2 ^ 74) (hT : |T| ≤ 2 ^ 40) {D : Fin 5 → ℝ}
    (hDj : ∀ r ∈ r0 :: rs, ∀ j, |r.row T j - utMean 5 Λ (r0.row T j) (rs.map (·.row T j))| ≤ D j)
    (hDM : ∀ j, D j + 2 * meanErr 5 Λ (B j) (ctrvRho R j) ≤ 2 ^ 29)
    (h : IsTransformF (.fin a) β (.fin b) s L (.fin T) s' P') (j k : Fin 5) :
    ∃ p : ℚ, P' j k = .fin p ∧
      |(p : ℝ) - utCov 5 a b Λ (r0.row T j) (rs.map (·.row T j)) (r0.row T k) (rs.map (·.row T k))| ≤
        covErr 5 a b Λ (D j) (2 * meanErr 5 Λ (B j) (ctrvRho R j)) (D k) (2 * meanErr 5 Λ (B k) (ctrvRho R k)) := by
  have hp' : List.Forall₂ (fun p (r : CtrvPoint) => RowNear (fun j => B j + (B j / 2 ^ 22 + ctrvRho R j + 1 / 2 ^ 90))
      (fun j => ((B j / 2 ^ 22 + ctrvRho R j + 1 / 2 ^ 90 : ℚ) : ℝ))
      (rotateYawF (MotionModelF.toVec (MotionModelF.next p (.fin T)))) (r.row T))
      (s :: sigmaPointsF s L (.fin Λ)) (r0 :: rs) :=
    forall₂_mem hp fun p r _ h2 h3 => ctrv_row hm hm' h3 (hr r h2) hB3 (fun j => (hB j).trans (by norm_num))
      hR0 (hR.trans (by norm_num)) hT
  exact transform_cov (row := fun r : CtrvPoint => r.row T) (by norm_num) (by norm_num) hΛ ha hb hL
    (by simpa using hD) ((hr r0 List.mem_cons_self).pos hB3) hB (ctrvRho_nonneg hR0)
    (fun j => (ctrvRho_le hR0 j).trans (by norm_num at hR ⊢; linarith)) hp' hDj hDM h j k

end

end Mot.Props
