import Verif.Proofs.Ieee
import Verif.Props.FloatExact
/-!
# The computed prediction against the exact unscented transform: CTRA model, sigma points (C95)
-/

namespace Mot.Props

open Mot Spec

variable {m : Libm}

/-- numbers of a point: the members of a state, and its heading after the step as a number `t` -/
structure CtraPoint where
  x : ℚ
  y : ℚ
  v : ℚ
  w : ℚ
  acc : ℚ
  a : ℚ
  t : ℝ

/-- the exact state of a point -/
noncomputable def CtraPoint.state (r : CtraPoint) : CtraState := ⟨r.x, r.y, r.v, Angle.ofRad r.a, r.w, r.acc⟩

/-- the exact prediction of a point -/
noncomputable def CtraPoint.row (r : CtraPoint) (T : ℝ) : Fin 6 → ℝ :=
  ![(r.state.next T).x, (r.state.next T).y, r.v + r.acc * T, r.t, r.w, r.acc]

/-- sizes of the numbers of a point; `G` bounds the amplification of rounding errors by the turn.  The
heading after the step is between -3.14 and 3.14. -/
structure CtraPoint.Bounded (r : CtraPoint) (T : ℚ) (B : Fin 6 → ℚ) (G : ℚ) : Prop where
  ha : 0 ≤ r.a
  ha' : (r.a : ℝ) < 2 * Real.pi
  hx : |r.x| ≤ B 0
  hx' : |(r.state.next T).x| ≤ B 0
  hy : |r.y| ≤ B 1
  hy' : |(r.state.next T).y| ≤ B 1
  hv : |r.v| + |r.acc * T| ≤ B 2
  hw : |r.w| ≤ B 4
  hacc : |r.acc| ≤ B 5
  ht : |r.t| ≤ 314 / 100
  turn : ∃ k : ℤ, r.t = r.a + r.w * T + k * (2 * Real.pi)
  hΘ : |r.w * T| ≤ 2 ^ 19
  hG : |r.w| < (2 : ℚ) ^ (-1022 : ℤ) ∧ 16 * (|r.v * T| + |r.acc * T * T| + 1 / 2 ^ 100) ≤ G ∨
    1 / 2 ^ 60 ≤ |r.w| ∧ |r.w| ≤ 2 ^ 20 ∧ |r.v * r.w| + |r.acc * T * r.w| + |r.acc| ≤ 2 ^ 79 ∧
      (178 + 2 * |r.w * T|) * ((|r.v * r.w| + |r.acc * T * r.w| + |r.acc| + 1 / 2 ^ 100) / (r.w * r.w)) ≤ G

/-- the error that the motion model adds -/
def ctraRho (G : ℚ) : Fin 6 → ℚ := ![G / 2 ^ 52, G / 2 ^ 52, 0, 0, 0, 0]

theorem entry_near {X : ℚ} {Y : ℝ} {B ρ η : ℚ} (h : |(X : ℝ) - Y| ≤ η) (hY : |Y| ≤ B) (hB : B ≤ 2 ^ 38)
    (hη : 2 * η ≤ B / 2 ^ 23 + ρ + 1 / 2 ^ 91) (hρ : ρ ≤ 2 ^ 40) :
    ∃ c : ℚ, FP.conv binary32 (.fin X) = .fin c ∧ |c| ≤ B + (B / 2 ^ 22 + ρ + 1 / 2 ^ 90) ∧
      |(c : ℝ) - Y| ≤ ((B / 2 ^ 22 + ρ + 1 / 2 ^ 90 : ℚ) : ℝ) := by
  have hb0 : (0 : ℝ) ≤ B := (abs_nonneg _).trans hY
  have hb0' : 0 ≤ B := by exact_mod_cast hb0
  obtain ⟨c, c1, c2, c3⟩ := conv_row h hY (hB.trans (by norm_num)) (by
    norm_num at hB hη hρ ⊢
    linarith)
  have key : B / 2 ^ 24 + 2 * η + 1 / 2 ^ 149 ≤ B / 2 ^ 22 + ρ + 1 / 2 ^ 90 := by
    norm_num at hη ⊢
    linarith
  refine ⟨c, c1, c2.trans (by linarith), ?_⟩
  have key' := (Rat.cast_le (K := ℝ)).2 key
  refine le_trans ?_ key'
  push_cast at c3 ⊢
  exact c3

theorem ctra_row (hm : AccurateTrig m) (hm' : AccuratePhase m) {p : CtraStateF m} {r : CtraPoint} {T G : ℚ}
    {B : Fin 6 → ℚ} (hp : FiniteCtra p r.x r.y r.v r.w r.acc r.a) (hr : r.Bounded T B G) (hB3 : B 3 = 4)
    (hB : ∀ j, B j ≤ 2 ^ 38) (hG : G ≤ 2 ^ 80) (hT : |T| ≤ 2 ^ 20) :
    RowNear (fun j => B j + (B j / 2 ^ 22 + ctraRho G j + 1 / 2 ^ 90))
      (fun j => ((B j / 2 ^ 22 + ctraRho G j + 1 / 2 ^ 90 : ℚ) : ℝ))
      (rotateYawF (MotionModelF.toVec (MotionModelF.next p (.fin T)))) (r.row T) := by
  have ha7 : |r.a| ≤ 7 := by
    rw [abs_of_nonneg hr.ha]
    have := Real.pi_lt_d2
    have h2 := hr.ha'
    have : (r.a : ℝ) ≤ 7 := by linarith
    exact_mod_cast this
  have hB0 := hB 0
  have hB1 := hB 1
  have hB2 := hB 2
  have hB5 := hB 5
  have n4 := abs_nonneg r.v
  have n5 := abs_nonneg (r.acc * T)
  -- positions
  have pos : ∃ X Y : ℚ, (p.next (.fin T)).x = .fin X ∧ (p.next (.fin T)).y = .fin Y ∧
      |(X : ℝ) - (r.state.next T).x| ≤ ((B 0 / 2 ^ 53 + G / 2 ^ 53 : ℚ) : ℝ) ∧
      |(Y : ℝ) - (r.state.next T).y| ≤ ((B 1 / 2 ^ 53 + G / 2 ^ 53 : ℚ) : ℝ) := by
    have hx1 := (Rat.cast_le (K := ℝ)).2 hr.hx
    have hy1 := (Rat.cast_le (K := ℝ)).2 hr.hy
    push_cast at hx1 hy1 ⊢
    have hbx : |r.x| ≤ 2 ^ 200 := hr.hx.trans (hB0.trans (by norm_num))
    have hby : |r.y| ≤ 2 ^ 200 := hr.hy.trans (hB1.trans (by norm_num))
    rcases hr.hG with ⟨hw, hg⟩ | ⟨hw, hw', hM, hg⟩
    · have hg1 := (Rat.cast_le (K := ℝ)).2 hg
      push_cast at hg1
      obtain ⟨X, Y, h1, h2, h3, h4⟩ := C90_accuracy_straight hm p hp hr.ha hr.ha' hbx hby hw T hT
        (by norm_num at hB2 ⊢; linarith [hr.hv]) (hr.hacc.trans (hB5.trans (by norm_num)))
      refine ⟨X, Y, h1, h2, h3.trans ?_, h4.trans ?_⟩
      · rw [div_mul_eq_mul_div]
        gcongr
      · rw [div_mul_eq_mul_div]
        gcongr
    · have hg1 := (Rat.cast_le (K := ℝ)).2 hg
      push_cast at hg1
      obtain ⟨X, Y, h1, h2, h3, h4⟩ := C90_accuracy_turn hm hm' p hp hr.ha hr.ha' hbx hby hw hw' T hr.hΘ hM
      refine ⟨X, Y, h1, h2, h3.trans ?_, h4.trans ?_⟩
      · rw [div_mul_eq_mul_div]
        gcongr
      · rw [div_mul_eq_mul_div]
        gcongr
  obtain ⟨X, Y, hX, hY, eX, eY⟩ := pos
  -- speed
  have hspeed : ∃ V : ℚ, (p.next (.fin T)).v = .fin V ∧
      |(V : ℝ) - (r.v + r.acc * T)| ≤ ((4 * B 2 / 2 ^ 53 + 1 / 2 ^ 190 : ℚ) : ℝ) := by
    have hv := hr.hv
    have e0 : (p.next (.fin T)).v = FP.add binary64 (.fin r.v) (FP.mul binary64 (.fin r.acc) (.fin T)) := by
      rw [← hp.hv, ← hp.hacc]; rfl
    have e1 : FP.mul binary64 (.fin r.acc) (.fin T) = .fin (binary64.round (r.acc * T)) :=
      b64_ofRat (((le_add_of_nonneg_left n4).trans hv).trans (hB2.trans (by norm_num)))
    have e2 := b64_std (r.acc * T)
    rw [e0, e1]
    have eu : (r.acc * T : ℝ) = ((r.acc * T : ℚ) : ℝ) := by push_cast; rfl
    rw [eu]
    generalize r.acc * T = u at *
    generalize binary64.round u = u' at *
    have e3 := b64_std (r.v + u')
    have e4 := abs_add_le r.v u'
    have e5 := abs_add_le (u' - u) u
    rw [sub_add_cancel] at e5
    have e6 : FP.add binary64 (.fin r.v) (.fin u') = .fin (binary64.round (r.v + u')) :=
      b64_ofRat (by norm_num at hB2 e2 ⊢; linarith)
    refine ⟨_, e6, ?_⟩
    generalize binary64.round (r.v + u') = V at *
    have e7 : |V - (r.v + u)| ≤ 4 * B 2 / 2 ^ 53 + 1 / 2 ^ 190 := by
      have := abs_add_le (V - (r.v + u')) (u' - u)
      rw [show V - (r.v + u') + (u' - u) = V - (r.v + u) by ring] at this
      generalize V - (r.v + u') = z at *
      generalize u' - u = z' at *
      norm_num at e2 e3 ⊢
      linarith
    have e8 := (Rat.cast_le (K := ℝ)).2 e7
    rw [Rat.cast_abs, Rat.cast_sub, Rat.cast_add] at e8
    exact e8
  have other : ∀ {row : Fin 6 → FP} {j : Fin 6}, j.1 ≠ 3 → rotateYawF row j = row j := by
    intro row j hj
    unfold rotateYawF
    rw [if_neg (fun h => hj h.1)]
  have hρ3 : ctraRho G 3 = 0 := rfl
  have kept : ∀ {j : Fin 6} {X : ℚ}, ctraRho G j = 0 → |X| ≤ B j →
      ∃ c : ℚ, FP.conv binary32 (.fin X) = .fin c ∧ |c| ≤ B j + (B j / 2 ^ 22 + ctraRho G j + 1 / 2 ^ 90) ∧
        |(c : ℝ) - X| ≤ ((B j / 2 ^ 22 + ctraRho G j + 1 / 2 ^ 90 : ℚ) : ℝ) := by
    intro j X hρ h1
    have hb0 : 0 ≤ B j := (abs_nonneg _).trans h1
    exact entry_near (η := 0) (Y := (X : ℝ)) (X := X) (by simp) (by exact_mod_cast h1) (hB j)
      (by rw [hρ]; norm_num; linarith) (by rw [hρ]; norm_num)
  have hb0 : 0 ≤ B 0 := (abs_nonneg _).trans hr.hx
  have hb1 : 0 ≤ B 1 := (abs_nonneg _).trans hr.hy
  intro j
  fin_cases j
  · rw [other (by decide)]
    show ∃ c : ℚ, FP.conv binary32 (p.next (.fin T)).x = _ ∧ |c| ≤ B 0 + (B 0 / 2 ^ 22 + G / 2 ^ 52 + 1 / 2 ^ 90) ∧ _
    rw [hX]
    exact entry_near eX hr.hx' hB0 (by norm_num; linarith) (by norm_num at hG ⊢; linarith)
  · rw [other (by decide)]
    show ∃ c : ℚ, FP.conv binary32 (p.next (.fin T)).y = _ ∧ |c| ≤ B 1 + (B 1 / 2 ^ 22 + G / 2 ^ 52 + 1 / 2 ^ 90) ∧ _
    rw [hY]
    exact entry_near eY hr.hy' hB1 (by norm_num; linarith) (by norm_num at hG ⊢; linarith)
  · rw [other (by decide)]
    obtain ⟨V, hV, eV⟩ := hspeed
    show ∃ c : ℚ, FP.conv binary32 (p.next (.fin T)).v = _ ∧ |c| ≤ B 2 + (B 2 / 2 ^ 22 + 0 + 1 / 2 ^ 90) ∧ _
    rw [hV]
    refine entry_near (Y := (r.v + r.acc * T : ℝ)) eV ?_ hB2 (by norm_num; linarith [hr.hv]) (by norm_num)
    have := (Rat.cast_le (K := ℝ)).2 hr.hv
    push_cast at this
    exact (abs_add_le _ _).trans this
  · obtain ⟨c, c1, c2, c3⟩ := heading_entry hm' (n := 6) (i := 3) rfl
      (row := MotionModelF.toVec (MotionModelF.next p (.fin T))) hp.ha ha7 hr.hΘ hr.ht hr.turn
      (by rw [← hp.hw]; rfl)
    refine ⟨c, c1, ?_, c3.trans ?_⟩
    · show |c| ≤ B 3 + (B 3 / 2 ^ 22 + ctraRho G 3 + 1 / 2 ^ 90)
      rw [hB3, hρ3]
      norm_num
      linarith
    · show _ ≤ ((B 3 / 2 ^ 22 + ctraRho G 3 + 1 / 2 ^ 90 : ℚ) : ℝ)
      rw [hB3, hρ3]
      norm_num
  · rw [other (by decide)]
    show ∃ c : ℚ, FP.conv binary32 p.yawRate = _ ∧ _
    rw [hp.hw]
    exact kept rfl hr.hw
  · rw [other (by decide)]
    show ∃ c : ℚ, FP.conv binary32 p.a = _ ∧ _
    rw [hp.hacc]
    exact kept rfl hr.hacc

theorem ctraRho_nonneg {G : ℚ} (h : 0 ≤ G) (j : Fin 6) : 0 ≤ ctraRho G j := by
  fin_cases j <;> simp [ctraRho] <;> positivity

theorem ctraRho_le {G : ℚ} (h : 0 ≤ G) (j : Fin 6) : ctraRho G j ≤ G / 2 ^ 52 := by
  fin_cases j <;> simp [ctraRho] <;> positivity

theorem CtraPoint.Bounded.pos {r : CtraPoint} {T G : ℚ} {B : Fin 6 → ℚ} (h : r.Bounded T B G) (h3 : B 3 = 4)
    (j : Fin 6) : 0 ≤ B j := by
  fin_cases j
  · exact (abs_nonneg _).trans h.hx
  · exact (abs_nonneg _).trans h.hy
  · exact (add_nonneg (abs_nonneg _) (abs_nonneg _)).trans h.hv
  · exact (by rw [h3]; norm_num : 0 ≤ B 3)
  · exact (abs_nonneg _).trans h.hw
  · exact (abs_nonneg _).trans h.hacc

section
variable {β : FP} {a b Λ T G : ℚ} {s s' : CtraStateF m} {L P' : Matrix (Fin 6) (Fin 6) FP} {B : Fin 6 → ℚ}
  {r0 : CtraPoint} {rs : List CtraPoint}

/-- C95: the predicted state of a CTRA object is the weighted mean of the exact predictions of the
object and its sigma points, up to `meanErr` in each component. -/
theorem C95_mean_ctra (hm : AccurateTrig m) (hm' : AccuratePhase m) {α κ : FP} (hΛ : lambdaF 6 α β = .fin Λ)
    (hL : |Λ| ≤ 2 ^ 20) (hD : 1 / 2 ^ 40 ≤ |6 + Λ|)
    (hp : List.Forall₂ (fun p r => FiniteCtra p r.x r.y r.v r.w r.acc r.a) (s :: sigmaPointsF s L (.fin Λ))
      (r0 :: rs))
    (hr : ∀ r ∈ r0 :: rs, r.Bounded T B G) (hB3 : B 3 = 4) (hB : ∀ j, B j ≤ 2 ^ 38) (hG0 : 0 ≤ G)
    (hG : G ≤ 2 ^ 80) (hT : |T| ≤ 2 ^ 20) (h : IsTransformF α β κ s L (.fin T) s' P') :
    ∃ q : Fin 6 → ℚ,
      s' = ⟨.fin (q 0), .fin (q 1), .fin (q 2), m.ofRad (.fin (q 3)), .fin (q 4), .fin (q 5)⟩ ∧
      ∀ j, |(q j : ℝ) - utMean 6 Λ (r0.row T j) (rs.map (·.row T j))| ≤
        meanErr 6 Λ (B j) (ctraRho G j) := by
  have hp' : List.Forall₂ (fun p (r : CtraPoint) => RowNear (fun j => B j + (B j / 2 ^ 22 + ctraRho G j + 1 / 2 ^ 90))
      (fun j => ((B j / 2 ^ 22 + ctraRho G j + 1 / 2 ^ 90 : ℚ) : ℝ))
      (rotateYawF (MotionModelF.toVec (MotionModelF.next p (.fin T)))) (r.row T))
      (s :: sigmaPointsF s L (.fin Λ)) (r0 :: rs) :=
    forall₂_mem hp fun p r _ h2 h3 => ctra_row hm hm' h3 (hr r h2) hB3 hB hG hT
  obtain ⟨q, h1, h2, h3, -⟩ := transform_mean (by norm_num) (by norm_num) hΛ hL (by simpa using hD)
    ((hr r0 List.mem_cons_self).pos hB3) hB (ctraRho_nonneg hG0)
    (fun j => (ctraRho_le hG0 j).trans (by norm_num at hG ⊢; linarith)) hp' h
  refine ⟨q, ?_, h3⟩
  rw [h1]
  show CtraStateF.mk _ _ _ _ _ _ = _
  simp only [h2]

/-- C95: likewise the predicted covariance of a CTRA object. -/
theorem C95_cov_ctra (hm : AccurateTrig m) (hm' : AccuratePhase m) (hΛ : lambdaF 6 (.fin a) β = .fin Λ)
    (ha : |a| ≤ 2 ^ 14) (hb : |b| ≤ 2 ^ 28) (hL : |Λ| ≤ 2 ^ 20) (hD : 1 / 2 ^ 8 ≤ |6 + Λ|)
    (hp : List.Forall₂ (fun p r => FiniteCtra p r.x r.y r.v r.w r.acc r.a) (s :: sigmaPointsF s L (.fin Λ))
      (r0 :: rs))
    (hr : ∀ r ∈ r0 :: rs, r.Bounded T B G) (hB3 : B 3 = 4) (hB : ∀ j, B j ≤ 2 ^ 27) (hG0 : 0 ≤ G)
    (hG : G ≤ 2 ^ 79) (hT : |T| ≤ 2 ^ 20) {D : Fin 6 → ℝ}
    (hDj : ∀ r ∈ r0 :: rs, ∀ j, |r.row T j - utMean 6 Λ (r0.row T j) (rs.map (·.row T j))| ≤ D j)
    (hDM : ∀ j, D j + 2 * meanErr 6 Λ (B j) (ctraRho G j) ≤ 2 ^ 29)
    (h : IsTransformF (.fin a) β (.fin b) s L (.fin T) s' P') (j k : Fin 6) :
    ∃ p : ℚ, P' j k = .fin p ∧
      |(p : ℝ) - utCov 6 a b Λ (r0.row T j) (rs.map (·.row T j)) (r0.row T k) (rs.map (·.row T k))| ≤
        covErr 6 a b Λ (D j) (2 * meanErr 6 Λ (B j) (ctraRho G j)) (D k) (2 * meanErr 6 Λ (B k) (ctraRho G k)) := by
  have hp' : List.Forall₂ (fun p (r : CtraPoint) => RowNear (fun j => B j + (B j / 2 ^ 22 + ctraRho G j + 1 / 2 ^ 90))
      (fun j => ((B j / 2 ^ 22 + ctraRho G j + 1 / 2 ^ 90 : ℚ) : ℝ))
      (rotateYawF (MotionModelF.toVec (MotionModelF.next p (.fin T)))) (r.row T))
      (s :: sigmaPointsF s L (.fin Λ)) (r0 :: rs) :=
    forall₂_mem hp fun p r _ h2 h3 => ctra_row hm hm' h3 (hr r h2) hB3 (fun j => (hB j).trans (by norm_num))
      (hG.trans (by norm_num)) hT
  exact transform_cov (row := fun r : CtraPoint => r.row T) (by norm_num) (by norm_num) hΛ ha hb hL
    (by simpa using hD) ((hr r0 List.mem_cons_self).pos hB3) hB (ctraRho_nonneg hG0)
    (fun j => (ctraRho_le hG0 j).trans (by norm_num at hG ⊢; linarith)) hp' hDj hDM h j k

end

/-! ### Sigma points -/

theorem forall₂_flatMap {ι α β : Type} {p : α → β → Prop} {f : ι → List α} {g : ι → List β} {l : List ι}
    (h : ∀ i ∈ l, List.Forall₂ p (f i) (g i)) : List.Forall₂ p (l.flatMap f) (l.flatMap g) := by
  induction l with
  | nil => exact .nil
  | cons i l ih =>
    rw [List.flatMap_cons, List.flatMap_cons]
    exact List.rel_append (h i List.mem_cons_self) (ih fun j hj => h j (List.mem_cons_of_mem _ hj))

/-- the numbers of exact sigma points: state plus and minus each offset -/
def exactPoints {n : ℕ} (z : Fin n → ℚ) (d : Fin n → Fin n → ℚ) : List (Fin n → ℚ) :=
  (List.finRange n).flatMap fun j => [fun i => z i + d i j, fun i => z i - d i j]

/-- sum and difference of a `double` and a `float` -/
theorem offset_near {z d : ℚ} (hz : |z| ≤ 2 ^ 100) (hd : |d| ≤ 2 ^ 20) (hf : IsFloat d) :
    (∃ q, FP.add binary64 (.fin z) (FP.conv binary64 (.fin d)) = .fin q ∧ IsDouble q ∧
      NearestEven 53 (-1074) (z + d) q) ∧
    (∃ q, FP.sub binary64 (.fin z) (FP.conv binary64 (.fin d)) = .fin q ∧ IsDouble q ∧
      NearestEven 53 (-1074) (z - d) q) := by
  rw [hf.conv64]
  have key : ∀ y : ℚ, |y| ≤ 2 ^ 101 → ∃ q, FP.ofRat binary64 y = .fin q ∧ IsDouble q ∧
      NearestEven 53 (-1074) y q := by
    intro y hy
    refine ⟨_, b64_ofRat (hy.trans (by norm_num)), isDouble_round ?_, Fmt.round_nearestEven binary64 (by decide) y⟩
    refine (abs_b64_le hy (by norm_num)).trans_lt ?_
    have h1 : (2 : ℚ) ^ (200 : ℤ) < (2 : ℚ) ^ (1024 : ℤ) := zpow_lt_zpow_right₀ (by norm_num) (by norm_num)
    refine lt_trans ?_ h1
    norm_num
  constructor
  · exact key _ ((abs_add_le _ _).trans (by norm_num at hz hd ⊢; linarith))
  · exact key _ ((abs_sub _ _).trans (by norm_num at hz hd ⊢; linarith))

/-- `p` is a CTRV state whose numbers are those of `e` rounded to `double`; the heading, `e 3`, is
met up to 2⁻⁴⁷ and full turns -/
def CtrvNear (p : CtrvStateF m) (e : Fin 5 → ℚ) : Prop :=
  ∃ q : Fin 5 → ℚ, CtrvFields p (q 0) (q 1) (q 2) (q 4) (q 3) ∧ 0 ≤ q 3 ∧ (q 3 : ℝ) < 2 * Real.pi ∧
    SameDirection (q 3) (e 3) (1 / 2 ^ 47) ∧
    ∀ i, i ≠ 3 → NearestEven 53 (-1074) (e i) (q i)

/-- the same for the CTRA model -/
def CtraNear (p : CtraStateF m) (e : Fin 6 → ℚ) : Prop :=
  ∃ q : Fin 6 → ℚ, FiniteCtra p (q 0) (q 1) (q 2) (q 4) (q 5) (q 3) ∧ 0 ≤ q 3 ∧ (q 3 : ℝ) < 2 * Real.pi ∧
    SameDirection (q 3) (e 3) (1 / 2 ^ 47) ∧
    ∀ i, i ≠ 3 → NearestEven 53 (-1074) (e i) (q i)

/-- C95: the computed sigma points of a CTRV object are state plus and minus the columns of the
offsets, up to rounding of `double`s.  `d i j` are the products of the spread and the entries of the
square root, rounded to `float`. -/
theorem C95_points_ctrv (hm : AccuratePhase m) {s : CtrvStateF m} {z : Fin 5 → ℚ} {d : Fin 5 → Fin 5 → ℚ}
    {L : Matrix (Fin 5) (Fin 5) FP} {lam : FP} (hs : CtrvFields s (z 0) (z 1) (z 2) (z 4) (z 3))
    (hz : ∀ i, |z i| ≤ 2 ^ 100) (hz3 : |z 3| ≤ 7) (hd : ∀ i j, |d i j| ≤ 2 ^ 20)
    (hL : ∀ i j, FP.mul binary32 (spreadF 5 lam) (L i j) = .fin (d i j)) :
    List.Forall₂ CtrvNear (sigmaPointsF s L lam) (exactPoints z d) := by
  refine forall₂_flatMap fun j _ => ?_
  have hf : ∀ i, IsFloat (d i j) := fun i => mul_isFloat (hL i j)
  have hdir := addSub_dir hm hs.ha hz3 (δ := d 3 j) ((hd 3 j).trans (by norm_num))
  have e5 : ((5 : ℕ) : ℤ) = 5 := rfl
  simp only [e5, hL]
  refine .cons ?_ (.cons ?_ .nil)
  · choose q h1 h2 h3 using fun i => (offset_near (hz i) (hd i j) (hf i)).1
    obtain ⟨g, g1, g2, g3, g4⟩ := hdir.1
    refine ⟨fun i => if i = 3 then g else q i, ⟨?_, ?_, ?_, ?_, ?_, h2 4⟩, g2, g3, ?_, fun i hi => ?_⟩
    · show FP.add binary64 s.x _ = _
      rw [hs.hx]; exact h1 0
    · show FP.add binary64 s.y _ = _
      rw [hs.hy]; exact h1 1
    · show FP.add binary64 s.v _ = _
      rw [hs.hv]; exact h1 2
    · show FP.add binary64 s.yawRate _ = _
      rw [hs.hw]; exact h1 4
    · show m.getAngle (m.addAng s.yaw (m.ofRad (FP.conv binary64 (.fin (d 3 j))))) = _
      rw [(hf 3).conv64]; exact g1
    · rw [Rat.cast_add]
      exact g4.mono (by norm_num)
    · simp only [if_neg hi]
      exact h3 i
  · choose q h1 h2 h3 using fun i => (offset_near (hz i) (hd i j) (hf i)).2
    obtain ⟨g, g1, g2, g3, g4⟩ := hdir.2
    refine ⟨fun i => if i = 3 then g else q i, ⟨?_, ?_, ?_, ?_, ?_, h2 4⟩, g2, g3, ?_, fun i hi => ?_⟩
    · show FP.sub binary64 s.x _ = _
      rw [hs.hx]; exact h1 0
    · show FP.sub binary64 s.y _ = _
      rw [hs.hy]; exact h1 1
    · show FP.sub binary64 s.v _ = _
      rw [hs.hv]; exact h1 2
    · show FP.sub binary64 s.yawRate _ = _
      rw [hs.hw]; exact h1 4
    · show m.getAngle (m.subAng s.yaw (m.ofRad (FP.conv binary64 (.fin (d 3 j))))) = _
      rw [(hf 3).conv64]; exact g1
    · rw [Rat.cast_sub]
      exact g4.mono (by norm_num)
    · simp only [if_neg hi]
      exact h3 i

/-- C95: likewise for the CTRA model. -/
theorem C95_points_ctra (hm : AccuratePhase m) {s : CtraStateF m} {z : Fin 6 → ℚ} {d : Fin 6 → Fin 6 → ℚ}
    {L : Matrix (Fin 6) (Fin 6) FP} {lam : FP} (hs : FiniteCtra s (z 0) (z 1) (z 2) (z 4) (z 5) (z 3))
    (hz : ∀ i, |z i| ≤ 2 ^ 100) (hz3 : |z 3| ≤ 7) (hd : ∀ i j, |d i j| ≤ 2 ^ 20)
    (hL : ∀ i j, FP.mul binary32 (spreadF 6 lam) (L i j) = .fin (d i j)) :
    List.Forall₂ CtraNear (sigmaPointsF s L lam) (exactPoints z d) := by
  refine forall₂_flatMap fun j _ => ?_
  have hf : ∀ i, IsFloat (d i j) := fun i => mul_isFloat (hL i j)
  have hdir := addSub_dir hm hs.ha hz3 (δ := d 3 j) ((hd 3 j).trans (by norm_num))
  have e6 : ((6 : ℕ) : ℤ) = 6 := rfl
  simp only [e6, hL]
  refine .cons ?_ (.cons ?_ .nil)
  · choose q h1 h2 h3 using fun i => (offset_near (hz i) (hd i j) (hf i)).1
    obtain ⟨g, g1, g2, g3, g4⟩ := hdir.1
    refine ⟨fun i => if i = 3 then g else q i, ⟨?_, ?_, ?_, ?_, ?_, ?_, h2 4⟩, g2, g3, ?_, fun i hi => ?_⟩
    · show FP.add binary64 s.x _ = _
      rw [hs.hx]; exact h1 0
    · show FP.add binary64 s.y _ = _
      rw [hs.hy]; exact h1 1
    · show FP.add binary64 s.v _ = _
      rw [hs.hv]; exact h1 2
    · show FP.add binary64 s.yawRate _ = _
      rw [hs.hw]; exact h1 4
    · show FP.add binary64 s.a _ = _
      rw [hs.hacc]; exact h1 5
    · show m.getAngle (m.addAng s.yaw (m.ofRad (FP.conv binary64 (.fin (d 3 j))))) = _
      rw [(hf 3).conv64]; exact g1
    · rw [Rat.cast_add]
      exact g4.mono (by norm_num)
    · simp only [if_neg hi]
      exact h3 i
  · choose q h1 h2 h3 using fun i => (offset_near (hz i) (hd i j) (hf i)).2
    obtain ⟨g, g1, g2, g3, g4⟩ := hdir.2
    refine ⟨fun i => if i = 3 then g else q i, ⟨?_, ?_, ?_, ?_, ?_, ?_, h2 4⟩, g2, g3, ?_, fun i hi => ?_⟩
    · show FP.sub binary64 s.x _ = _
      rw [hs.hx]; exact h1 0
    · show FP.sub binary64 s.y _ = _
      rw [hs.hy]; exact h1 1
    · show FP.sub binary64 s.v _ = _
      rw [hs.hv]; exact h1 2
    · show FP.sub binary64 s.yawRate _ = _
      rw [hs.hw]; exact h1 4
    · show FP.sub binary64 s.a _ = _
      rw [hs.hacc]; exact h1 5
    · show m.getAngle (m.subAng s.yaw (m.ofRad (FP.conv binary64 (.fin (d 3 j))))) = _
      rw [(hf 3).conv64]; exact g1
    · rw [Rat.cast_sub]
      exact g4.mono (by norm_num)
    · simp only [if_neg hi]
      exact h3 i

end Mot.Props
