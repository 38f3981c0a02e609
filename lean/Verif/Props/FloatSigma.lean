import Verif.Proofs.FloatSigma
/-!
# C125: the sigma points as computed carry the covariance, and prediction as computed keeps it
-/

namespace Mot.Props

open Matrix Spec SigmaF

/-- C125: the offsets of the sigma points, spread and factor computed in `float`: weighted with the computed weight, and also
with the exact weight 1/(2(n+Λ)), the products of the offsets add up to the covariance, up to 2^-18 of the standard
deviations; and no offset is larger than √(1.1(n+Λ)) standard deviations. -/
theorem C125_offsets (hn : n ≤ 6) {P : Matrix (Fin n) (Fin n) ℚ} (hs : Pᵀ = P) (hl : ∀ i, 1 / 2 ^ 40 ≤ P i i)
    (hh : ∀ i, P i i ≤ 2 ^ 40) (hm : (real P - (1 / 2 ^ 16 : ℝ) • diagonal fun i => real P i i).PosDef)
    {L : Matrix (Fin n) (Fin n) FP} {r : Option (Fin n)} (h : IsLltF (finite P) L r) {Λ : ℚ} (h1 : 1 / 2 ^ 20 ≤ n + Λ)
    (h2 : n + Λ ≤ 2 ^ 20) :
    ∃ (w : ℚ) (d : Fin n → Fin n → ℚ), wiF n (.fin Λ) = .fin w ∧
      (∀ i j, FP.mul binary32 (spreadF n (.fin Λ)) (L i j) = .fin (d i j)) ∧
      (∀ i j, d i j ^ 2 ≤ 11 / 10 * (n + Λ) * P i i) ∧
      (∀ i k, |2 * w * ∑ j, (d i j : ℝ) * d k j - real P i k| ≤ 1 / 2 ^ 18 * (√(real P i i) * √(real P k k))) ∧
      ∀ i k, |(∑ j, (d i j : ℝ) * d k j) / (n + Λ) - real P i k| ≤ 1 / 2 ^ 18 * (√(real P i i) * √(real P k k)) := by
  have hP : LltF.Good P := ⟨hn, hs, hl, hh, hm⟩
  obtain ⟨-, Q, rfl, -, -, hQ⟩ := C122_accurate hn hs hl hh hm h
  obtain ⟨r, w, e1, e2, e3, e4, e5, e6⟩ := spread_bounds (n := n) (by omega) h1 h2
  have hD0 : (0 : ℚ) < n + Λ := lt_of_lt_of_le (by norm_num) h1
  have hD0r : (0 : ℝ) < n + Λ := by exact_mod_cast hD0
  have hr0 : (0 : ℝ) < r := Rat.cast_pos.2 (lt_of_lt_of_le (by norm_num) e4)
  have off : ∀ i j, |real P i j| ≤ √(real P i i) * √(real P j j) := hP.off
  have e6r : |(r : ℝ) ^ 2 - (n + Λ)| ≤ 32 / 10 / 2 ^ 24 * (n + Λ) := by
    have := (Rat.cast_le (K := ℝ)).2 e6
    push_cast at this
    exact this
  have cov := fun {c : ℝ} (hc : |c * r ^ 2 - 1| ≤ 5 / 2 ^ 24) => offsets_cov hn hl hh off hQ e4 e5 hc
  refine ⟨w, fun i j => binary32.round (r * Q i j), e2, fun i j => ?_, fun i j => ?_, ?_, ?_⟩
  · rw [e1]
    exact (offset hl hh hQ e4 e5 i j).1
  · have o := (offset hl hh hQ e4 e5 i j).2
    have q := row_le hl hQ i j
    have hp : (0 : ℝ) ≤ real P i i := Rat.cast_nonneg.2 (le_trans (by norm_num) (hl i))
    have hsq := Real.sq_sqrt hp
    have hs0 := Real.sqrt_nonneg (real P i i)
    generalize √(real P i i) = σ at *
    have q1 := mul_le_mul_of_nonneg_left q hr0.le
    rw [← abs_of_pos hr0, ← abs_mul, abs_of_pos hr0] at q1
    have t := abs_add_le (((binary32.round (r * Q i j) : ℚ) : ℝ) - r * real Q i j) (r * real Q i j)
    rw [sub_add_cancel] at t
    have hb : |((binary32.round (r * Q i j) : ℚ) : ℝ)| ≤ 102 / 100 * (r * σ) := by
      have : 0 ≤ r * σ := by positivity
      norm_num at o t q1 ⊢
      linarith
    have hb2 := pow_le_pow_left₀ (abs_nonneg _) hb 2
    rw [sq_abs, mul_pow, mul_pow, hsq] at hb2
    have hr2 := (abs_le.1 e6r).2
    have : (r : ℝ) ^ 2 * real P i i ≤ (1 + 32 / 10 / 2 ^ 24) * (n + Λ) * real P i i :=
      mul_le_mul_of_nonneg_right (by linarith) hp
    have hx : 0 ≤ ((n : ℝ) + Λ) * real P i i := by positivity
    have fin : (((binary32.round (r * Q i j)) ^ 2 : ℚ) : ℝ) ≤ ((11 / 10 * (n + Λ) * P i i : ℚ) : ℝ) := by
      push_cast
      show _ ≤ 11 / 10 * ((n : ℝ) + Λ) * real P i i
      rw [mul_assoc] at this ⊢
      norm_num at this hb2 ⊢
      linarith
    exact Rat.cast_le.1 fin
  · refine cov ?_
    have := (Rat.cast_le (K := ℝ)).2 e3
    push_cast at this
    exact this
  · intro i k
    have := cov (c := 1 / ((n : ℝ) + Λ)) (by
      rw [show 1 / ((n : ℝ) + Λ) * r ^ 2 - 1 = (r ^ 2 - (n + Λ)) / (n + Λ) by field_simp, abs_div, abs_of_pos hD0r,
        div_le_iff₀ hD0r]
      refine e6r.trans (mul_le_mul_of_nonneg_right (by norm_num) hD0r.le)) i k
    rwa [one_div_mul_eq_div] at this

/-- C125: so the computed sigma points of a CTRV object are, up to rounding of `double`s, a set of points the covariance of
which is that of the object up to 2^-18. -/
theorem C125_points_ctrv (hacc : AccuratePhase m) {s : CtrvStateF m} {z : Fin 5 → ℚ} {P : Matrix (Fin 5) (Fin 5) ℚ}
    (hs : Pᵀ = P) (hl : ∀ i, 1 / 2 ^ 40 ≤ P i i) (hm : (real P - (1 / 2 ^ 16 : ℝ) • diagonal fun i => real P i i).PosDef)
    {L : Matrix (Fin 5) (Fin 5) FP} {r : Option (Fin 5)} (h : IsLltF (finite P) L r) {Λ : ℚ} (h1 : 1 / 2 ^ 20 ≤ 5 + Λ)
    (h2 : 5 + Λ ≤ 2 ^ 20) (hh : ∀ i, P i i ≤ 2 ^ 40) (hd : ∀ i, (5 + Λ) * P i i ≤ 2 ^ 39)
    (hf : CtrvFields s (z 0) (z 1) (z 2) (z 4) (z 3)) (hz : ∀ i, |z i| ≤ 2 ^ 100) (hz3 : |z 3| ≤ 7) :
    ∃ d : Fin 5 → Fin 5 → ℚ, List.Forall₂ CtrvNear (sigmaPointsF s L (.fin Λ)) (exactPoints z d) ∧
      ∀ i k, |(∑ j, (d i j : ℝ) * d k j) / (5 + Λ) - real P i k| ≤ 1 / 2 ^ 18 * (√(real P i i) * √(real P k k)) := by
  obtain ⟨w, d, -, e2, e3, -, e5⟩ := C125_offsets (by norm_num) hs hl hh hm h (Λ := Λ) h1 h2
  refine ⟨d, C95_points_ctrv hacc hf hz hz3 (fun i j => ?_) e2, e5⟩
  refine abs_le_of_sq_le_sq ((e3 i j).trans ?_) (by norm_num)
  have := hd i
  push_cast
  rw [mul_assoc]
  norm_num at this ⊢
  linarith

/-- C125: likewise for the CTRA model. -/
theorem C125_points_ctra (hacc : AccuratePhase m) {s : CtraStateF m} {z : Fin 6 → ℚ} {P : Matrix (Fin 6) (Fin 6) ℚ}
    (hs : Pᵀ = P) (hl : ∀ i, 1 / 2 ^ 40 ≤ P i i) (hm : (real P - (1 / 2 ^ 16 : ℝ) • diagonal fun i => real P i i).PosDef)
    {L : Matrix (Fin 6) (Fin 6) FP} {r : Option (Fin 6)} (h : IsLltF (finite P) L r) {Λ : ℚ} (h1 : 1 / 2 ^ 20 ≤ 6 + Λ)
    (h2 : 6 + Λ ≤ 2 ^ 20) (hh : ∀ i, P i i ≤ 2 ^ 40) (hd : ∀ i, (6 + Λ) * P i i ≤ 2 ^ 39)
    (hf : FiniteCtra s (z 0) (z 1) (z 2) (z 4) (z 5) (z 3)) (hz : ∀ i, |z i| ≤ 2 ^ 100) (hz3 : |z 3| ≤ 7) :
    ∃ d : Fin 6 → Fin 6 → ℚ, List.Forall₂ CtraNear (sigmaPointsF s L (.fin Λ)) (exactPoints z d) ∧
      ∀ i k, |(∑ j, (d i j : ℝ) * d k j) / (6 + Λ) - real P i k| ≤ 1 / 2 ^ 18 * (√(real P i i) * √(real P k k)) := by
  obtain ⟨w, d, -, e2, e3, -, e5⟩ := C125_offsets (by norm_num) hs hl hh hm h (Λ := Λ) h1 h2
  refine ⟨d, C95_points_ctra hacc hf hz hz3 (fun i j => ?_) e2, e5⟩
  refine abs_le_of_sq_le_sq ((e3 i j).trans ?_) (by norm_num)
  have := hd i
  push_cast
  rw [mul_assoc]
  norm_num at this ⊢
  linarith

/-- offsets with the default parameters -/
theorem offsets_default (hn : 2 ≤ n) (hn' : n ≤ 6) {P : Matrix (Fin n) (Fin n) ℚ} (hs : Pᵀ = P) (hl : ∀ i, 1 / 2 ^ 40 ≤ P i i)
    (hm : (real P - (1 / 2 ^ 16 : ℝ) • diagonal fun i => real P i i).PosDef) {L : Matrix (Fin n) (Fin n) FP}
    {r : Option (Fin n)} (h : IsLltF (finite P) L r) {σ : Fin n → ℚ} (hσ : ∀ i, 0 ≤ σ i) (hPσ : ∀ i, P i i ≤ σ i ^ 2)
    (hσl : ∀ i, σ i ≤ 2 ^ 20) :
    ∃ d : Fin n → Fin n → ℚ, (∀ i j, FP.mul binary32 (spreadF n (.fin 2)) (L i j) = .fin (d i j)) ∧
      (∀ i j, |d i j| ≤ 3 * σ i) ∧
      ∀ i k, |(∑ j, (d i j : ℝ) * d k j) / (n + 2) - (P i k : ℚ)| ≤ 1 / 2 ^ 18 * (σ i * σ k) := by
  have hn1 : (n : ℚ) ≤ 6 := by exact_mod_cast hn'
  have hn0 : (0 : ℚ) ≤ n := by positivity
  have hh : ∀ i, P i i ≤ 2 ^ 40 := fun i => (hPσ i).trans ((pow_le_pow_left₀ (hσ i) (hσl i) 2).trans (by norm_num))
  obtain ⟨w, d, -, e2, e3, -, e5⟩ := C125_offsets hn' hs hl hh hm h (Λ := 2) (by norm_num; linarith) (by norm_num; linarith)
  have hroot : ∀ i, √(real P i i) ≤ σ i := fun i => by
    rw [Real.sqrt_le_left (Rat.cast_nonneg.2 (hσ i))]
    have := (Rat.cast_le (K := ℝ)).2 (hPσ i)
    push_cast at this
    exact this
  refine ⟨d, e2, fun i j => abs_le_of_sq_le_sq ((e3 i j).trans ?_) (by linarith [hσ i]), fun i k => ?_⟩
  · have : 11 / 10 * ((n : ℚ) + 2) * P i i ≤ 9 * σ i ^ 2 :=
      mul_le_mul (by linarith) (hPσ i) (le_trans (by norm_num) (hl i)) (by norm_num)
    linarith
  · have := e5 i k
    push_cast at this
    refine this.trans (mul_le_mul_of_nonneg_left ?_ (by norm_num))
    exact mul_le_mul (hroot i) (hroot k) (Real.sqrt_nonneg _) (Rat.cast_nonneg.2 (hσ i))

/-- C125: prediction of a CTRV object with the default transform, everything computed in `float`: speed and turn rate keep
their variances and their covariance, up to `keptErr`.  `σ` are bounds of the standard deviations. -/
theorem C125_kept_ctrv {s s' : CtrvStateF m} {z : Fin 5 → ℚ} {P : Matrix (Fin 5) (Fin 5) ℚ} (hs : Pᵀ = P)
    (hl : ∀ i, 1 / 2 ^ 40 ≤ P i i) (hm : (real P - (1 / 2 ^ 16 : ℝ) • diagonal fun i => real P i i).PosDef)
    {L P' : Matrix (Fin 5) (Fin 5) FP} {r : Option (Fin 5)} (h : IsLltF (finite P) L r) {σ : Fin 5 → ℚ} (hσ : ∀ i, 0 ≤ σ i)
    (hPσ : ∀ i, P i i ≤ σ i ^ 2) (hσl : ∀ i, σ i ≤ 2 ^ 20) (hv : s.v = .fin (z 2)) (hw : s.yawRate = .fin (z 4))
    (hz : ∀ j, j = 2 ∨ j = 4 → |z j| + 3 * σ j ≤ 2 ^ 22) {dt : FP}
    (ht : IsTransformF (.fin 1) (.fin 2) (.fin 1) s L dt s' P') (j k : Fin 5) (hj : j = 2 ∨ j = 4) (hk : k = 2 ∨ k = 4) :
    Within (P' j k) (P j k) (keptErr (σ j) (|z j| + 3 * σ j) (σ k) (|z k| + 3 * σ k)) := by
  obtain ⟨d, e1, e2, e3⟩ := offsets_default (by norm_num) (by norm_num) hs hl hm h hσ hPσ hσl
  obtain ⟨x, hx, hc, rfl⟩ := ht
  have e5 : ((5 : ℕ) : ℤ) = 5 := rfl
  have hΛ : lambdaF 5 (.fin 1) (.fin 2) = .fin 2 := by decide +kernel
  simp only [e5, hΛ] at hx hc e1
  have col : ∀ j : Fin 5, j = 2 ∨ j = 4 →
      (predictedRowsF s L dt (.fin 2)).map (· j) = (FP.conv binary32 (.fin (z j)) ::
        (List.finRange 5).flatMap fun l => [FP.conv binary32 (FP.add binary64 (.fin (z j)) (FP.conv binary64 (.fin (d j l)))),
         FP.conv binary32 (FP.sub binary64 (.fin (z j)) (FP.conv binary64 (.fin (d j l))))]) := by
    rintro j (rfl | rfl)
    · rw [rows_map s L _ _ (by decide), ← hv]
      simp only [← e1]
      rfl
    · rw [rows_map s L _ _ (by decide), ← hw]
      simp only [← e1]
      rfl
  have mean : ∀ j : Fin 5, j = 2 ∨ j = 4 → Within (x j) (z j) ((2 * (5 : ℕ) + 7) / 2 ^ 24 * (|z j| + 3 * σ j) + 1 / 2 ^ 80) := by
    intro j hj
    have hk := hx j
    rw [col j hj] at hk
    have := kept_mean (n := 5) (by norm_num) (by norm_num) (by norm_num [abs_of_pos]) (by norm_num [abs_of_pos]) (e2 j)
      ((hz j hj).trans (by norm_num)) _ _ hk
    have h1 : (|(2 : ℚ)| + (5 : ℕ)) / |((5 : ℕ) : ℚ) + 2| = 1 := by norm_num [abs_of_pos]
    rwa [h1, mul_one] at this
  obtain ⟨q, hq, mq⟩ := mean j hj
  obtain ⟨q', hq', mq'⟩ := mean k hk
  obtain ⟨c, cp, cm, l1, l2⟩ := kept_col (hσ j) (e2 j) (hz j hj)
  obtain ⟨c', cp', cm', l1', l2'⟩ := kept_col (hσ k) (e2 k) (hz k hk)
  have hp := hc j k
  rw [col j hj, col k hk, l2, l2', hq, hq'] at hp
  exact lin_default (by norm_num) (by norm_num) l1 l1' le_rfl le_rfl (hz j hj) (hz k hk) rfl rfl mq mq' hp (e3 j k)

/-- covariances under the linear part of the CTRA motion -/
theorem speedUp_cov {d : Fin 6 → Fin 6 → ℚ} {P : Matrix (Fin 6) (Fin 6) ℚ} {σ : Fin 6 → ℚ}
    (h : ∀ i k, |(∑ j, (d i j : ℝ) * d k j) / ((6 : ℕ) + 2) - (P i k : ℚ)| ≤ 1 / 2 ^ 18 * (σ i * σ k)) (T : ℚ) (j k : Fin 6) :
    |(∑ l, ((speedUp T (fun i => d i l) j : ℚ) : ℝ) * (speedUp T (fun i => d i l) k : ℚ)) / ((6 : ℕ) + 2) -
      (speedUp T (fun i => speedUp T (P i) k) j : ℚ)| ≤ 1 / 2 ^ 18 * ((speedUp |T| σ j : ℚ) * (speedUp |T| σ k : ℚ)) := by
  have hu : ∀ (T : ℚ) (x : Fin 6 → ℚ) (j : Fin 6), speedUp T x j = x j + x 5 * if j = 2 then T else 0 := by
    intro T x j
    unfold speedUp
    split
    · next h => rw [h]
    · ring
  have ha : ∀ j : Fin 6, (if j = 2 then |T| else 0) = |if j = 2 then T else 0| := by
    intro j
    split
    · rfl
    · exact abs_zero.symm
  simp only [hu, ha]
  generalize (if j = 2 then T else 0) = u
  generalize (if k = 2 then T else 0) = w
  have e : (∑ l, ((d j l + d 5 l * u : ℚ) : ℝ) * (d k l + d 5 l * w : ℚ)) =
      (∑ l, (d j l : ℝ) * d k l) + w * (∑ l, (d j l : ℝ) * d 5 l) + u * (∑ l, (d 5 l : ℝ) * d k l) +
        u * w * ∑ l, (d 5 l : ℝ) * d 5 l := by
    simp only [Finset.mul_sum, ← Finset.sum_add_distrib]
    refine Finset.sum_congr rfl fun l _ => ?_
    push_cast
    ring
  rw [e]
  have h1 := h j k
  have h2 := mul_le_mul_of_nonneg_left (h j 5) (abs_nonneg (w : ℝ))
  have h3 := mul_le_mul_of_nonneg_left (h 5 k) (abs_nonneg (u : ℝ))
  have h4 := mul_le_mul_of_nonneg_left (h 5 5) (abs_nonneg ((u : ℝ) * w))
  rw [← abs_mul] at h2 h3 h4
  push_cast at h1 h2 h3 h4 ⊢
  generalize (∑ l, (d j l : ℝ) * d k l) = s1 at *
  generalize (∑ l, (d j l : ℝ) * d 5 l) = s2 at *
  generalize (∑ l, (d 5 l : ℝ) * d k l) = s3 at *
  generalize (∑ l, (d 5 l : ℝ) * d 5 l) = s4 at *
  have e' : (s1 + w * s2 + u * s3 + u * w * s4) / (6 + 2) - ((P j k : ℝ) + P j 5 * w + (P 5 k + P 5 5 * w) * u) =
      (s1 / (6 + 2) - P j k) + w * (s2 / (6 + 2) - P j 5) + u * (s3 / (6 + 2) - P 5 k) + u * w * (s4 / (6 + 2) - P 5 5) := by ring
  rw [e']
  refine (abs_add_le _ _).trans ?_
  refine (add_le_add_left ((abs_add_le _ _).trans (add_le_add_left (abs_add_le _ _) _)) _).trans ?_
  refine (add_le_add (add_le_add (add_le_add h1 h2) h3) h4).trans (le_of_eq ?_)
  rw [abs_mul]
  ring

/-- C125: prediction of a CTRA object with the default transform, everything computed in `float`: turn rate and acceleration
keep their variances, the speed gets the variance of v + aT, and so for the covariances of the three, up to `keptErr`. -/
theorem C125_kept_ctra {s s' : CtraStateF m} {z : Fin 6 → ℚ} {P : Matrix (Fin 6) (Fin 6) ℚ} (hs : Pᵀ = P)
    (hl : ∀ i, 1 / 2 ^ 40 ≤ P i i) (hm : (real P - (1 / 2 ^ 16 : ℝ) • diagonal fun i => real P i i).PosDef)
    {L P' : Matrix (Fin 6) (Fin 6) FP} {r : Option (Fin 6)} (h : IsLltF (finite P) L r) {σ : Fin 6 → ℚ} (hσ : ∀ i, 0 ≤ σ i)
    (hPσ : ∀ i, P i i ≤ σ i ^ 2) (hσl : ∀ i, σ i ≤ 2 ^ 20) (hv : s.v = .fin (z 2)) (hw : s.yawRate = .fin (z 4))
    (ha : s.a = .fin (z 5)) {T : ℚ} (hT : |T| ≤ 2 ^ 20) {S : Fin 6 → ℚ} (hS : S = speedUp |T| fun i => |z i| + 3 * σ i)
    (hz : ∀ j, j = 2 ∨ j = 4 ∨ j = 5 → S j ≤ 2 ^ 22)
    (ht : IsTransformF (.fin 1) (.fin 2) (.fin 1) s L (.fin T) s' P') (j k : Fin 6) (hj : j = 2 ∨ j = 4 ∨ j = 5)
    (hk : k = 2 ∨ k = 4 ∨ k = 5) :
    Within (P' j k) (speedUp T (fun i => speedUp T (P i) k) j) (keptErr (speedUp |T| σ j) (S j) (speedUp |T| σ k) (S k)) := by
  obtain ⟨d, e1, e2, e3⟩ := offsets_default (by norm_num) (by norm_num) hs hl hm h hσ hPσ hσl
  obtain ⟨x, hx, hc, rfl⟩ := ht
  have e6 : ((6 : ℕ) : ℤ) = 6 := rfl
  have hΛ : lambdaF 6 (.fin 1) (.fin 2) = .fin 2 := by decide +kernel
  simp only [e6, hΛ] at hx hc e1
  have hone : (|(2 : ℚ)| + (6 : ℕ)) / |((6 : ℕ) : ℚ) + 2| = 1 := by norm_num [abs_of_pos]
  -- columns of the kept components
  have kept : ∀ j : Fin 6, j = 4 ∨ j = 5 →
      (predictedRowsF s L (.fin T) (.fin 2)).map (· j) = (FP.conv binary32 (.fin (z j)) ::
        (List.finRange 6).flatMap fun l => [FP.conv binary32 (FP.add binary64 (.fin (z j)) (FP.conv binary64 (.fin (d j l)))),
         FP.conv binary32 (FP.sub binary64 (.fin (z j)) (FP.conv binary64 (.fin (d j l))))]) := by
    rintro j (rfl | rfl)
    · rw [rows_map s L _ _ (by decide), ← hw]
      simp only [← e1]
      rfl
    · rw [rows_map s L _ _ (by decide), ← ha]
      simp only [← e1]
      rfl
  have hz5 : |z 5| + 3 * σ 5 ≤ 2 ^ 22 := by
    have := hz 5 (by simp)
    rw [hS] at this
    exact this
  have hz2 : |z 2| + 3 * σ 2 + (|z 5| + 3 * σ 5) * |T| ≤ 2 ^ 22 := by
    have := hz 2 (by simp)
    rw [hS] at this
    exact this
  have speed : (predictedRowsF s L (.fin T) (.fin 2)).map (· 2) =
      (FP.conv binary32 (FP.add binary64 (.fin (z 2)) (FP.mul binary64 (.fin (z 5)) (.fin T))) :: (List.finRange 6).flatMap fun l =>
        [FP.conv binary32 (FP.add binary64 (FP.add binary64 (.fin (z 2)) (FP.conv binary64 (.fin (d 2 l))))
            (FP.mul binary64 (FP.add binary64 (.fin (z 5)) (FP.conv binary64 (.fin (d 5 l)))) (.fin T))),
         FP.conv binary32 (FP.add binary64 (FP.sub binary64 (.fin (z 2)) (FP.conv binary64 (.fin (d 2 l))))
            (FP.mul binary64 (FP.sub binary64 (.fin (z 5)) (FP.conv binary64 (.fin (d 5 l)))) (.fin T)))]) := by
    rw [rows_map s L _ _ (by decide), ← hv, ← ha]
    simp only [← e1]
    rfl
  have col : ∀ j : Fin 6, j = 2 ∨ j = 4 ∨ j = 5 → ∃ q c cp cm,
      LinCol (speedUp T z j) (fun l => speedUp T (fun i => d i l) j) (3 * speedUp |T| σ j)
        ((1 + 1 / 2 ^ 15) / 2 ^ 24 * S j + 1 / 2 ^ 149) c cp cm ∧
      (predictedRowsF s L (.fin T) (.fin 2)).map (· j) = colOf c cp cm ∧ x j = .fin q ∧
      |q - speedUp T z j| ≤ (2 * (6 : ℕ) + 7) / 2 ^ 24 * S j + 1 / 2 ^ 80 ∧
      |speedUp T z j| + 3 * speedUp |T| σ j ≤ S j := by
    intro j hj
    rcases hj with rfl | hj
    · obtain ⟨c, cp, cm, l1, l2⟩ := speed_col (hσ 2) (hσ 5) (e2 2) (e2 5) hT hz5 hz2
      have hk := hx 2
      rw [speed] at hk
      obtain ⟨q, hq, mq⟩ := speed_mean (n := 6) (by norm_num) (by norm_num) (by norm_num [abs_of_pos]) (by norm_num [abs_of_pos])
        (e2 2) (e2 5) hT (hz2.trans (by norm_num)) (hz5.trans (by norm_num)) _ _ hk
      rw [hone, mul_one] at mq
      subst hS
      refine ⟨q, c, cp, cm, l1, speed.trans l2, hq, mq, ?_⟩
      show |z 2 + z 5 * T| + 3 * (σ 2 + σ 5 * |T|) ≤ |z 2| + 3 * σ 2 + (|z 5| + 3 * σ 5) * |T|
      have := abs_add_le (z 2) (z 5 * T)
      rw [abs_mul] at this
      linarith
    · have hj2 : j ≠ 2 := by rcases hj with rfl | rfl <;> decide
      have hSj : S j = |z j| + 3 * σ j := by
        rw [hS]
        exact if_neg hj2
      have hzj : |z j| + 3 * σ j ≤ 2 ^ 22 := hSj ▸ hz j (.inr hj)
      obtain ⟨c, cp, cm, l1, l2⟩ := kept_col (hσ j) (e2 j) hzj
      have hk := hx j
      rw [kept j hj] at hk
      obtain ⟨q, hq, mq⟩ := kept_mean (n := 6) (by norm_num) (by norm_num) (by norm_num [abs_of_pos]) (by norm_num [abs_of_pos])
        (e2 j) (hzj.trans (by norm_num)) _ _ hk
      rw [hone, mul_one] at mq
      have su : ∀ (T : ℚ) (y : Fin 6 → ℚ), speedUp T y j = y j := fun T y => if_neg hj2
      simp only [su, hSj]
      exact ⟨q, c, cp, cm, l1, (kept j hj).trans l2, hq, mq, le_rfl⟩
  obtain ⟨q, c, cp, cm, l1, l2, hq, mq, hb⟩ := col j hj
  obtain ⟨q', c', cp', cm', l1', l2', hq', mq', hb'⟩ := col k hk
  have hp := hc j k
  rw [l2, l2', hq, hq'] at hp
  exact lin_default (by norm_num) (by norm_num) l1 l1' hb hb' (hz j hj) (hz k hk) rfl rfl mq mq' hp (speedUp_cov e3 T j k)

/-! ### Examples -/

/-- `C125_offsets`: variances 1 and 4, correlation 1/8, three sigmas -/
example {L : Matrix (Fin 2) (Fin 2) FP} {r : Option (Fin 2)} (h : IsLltF (finite !![1, 1 / 4; 1 / 4, 4]) L r) :
    ∃ d : Fin 2 → Fin 2 → ℚ, (∀ i j, FP.mul binary32 (spreadF 2 (.fin 7)) (L i j) = .fin (d i j)) ∧
      |(∑ j, (d 0 j : ℝ) * d 1 j) / 9 - 1 / 4| ≤ 1 / 2 ^ 17 := by
  have hs : (!![1, 1 / 4; 1 / 4, 4] : Matrix (Fin 2) (Fin 2) ℚ)ᵀ = !![1, 1 / 4; 1 / 4, 4] := by
    ext i j; fin_cases i <;> fin_cases j <;> rfl
  have hl : ∀ i, 1 / 2 ^ 40 ≤ (!![1, 1 / 4; 1 / 4, 4] : Matrix (Fin 2) (Fin 2) ℚ) i i := by
    intro i; fin_cases i <;> norm_num
  obtain ⟨w, d, -, h1, -, -, h2⟩ := C125_offsets (by norm_num) hs hl (by intro i; fin_cases i <;> norm_num)
    (margin_of_correlations (by norm_num) hs hl (by
      intro i j hij
      fin_cases i <;> fin_cases j <;> first | exact absurd rfl hij | norm_num)) h (Λ := 7) (by norm_num) (by norm_num)
  refine ⟨d, h1, ?_⟩
  have := h2 0 1
  have r0 : real (!![1, 1 / 4; 1 / 4, 4] : Matrix (Fin 2) (Fin 2) ℚ) 0 0 = 1 := Rat.cast_one
  have r1 : real (!![1, 1 / 4; 1 / 4, 4] : Matrix (Fin 2) (Fin 2) ℚ) 1 1 = 4 := Rat.cast_ofNat 4
  have r2 : real (!![1, 1 / 4; 1 / 4, 4] : Matrix (Fin 2) (Fin 2) ℚ) 0 1 = 1 / 4 := by
    show (((1 / 4 : ℚ)) : ℝ) = _
    norm_num
  rw [r0, r1, r2, show (4 : ℝ) = 2 ^ 2 by norm_num, Real.sqrt_sq (by norm_num), Real.sqrt_one] at this
  norm_num at this ⊢
  exact this

/-- covariance of a car: position known to 2 m, speed to 1 m/s, heading to 0.1 rad, turn rate to 0.1 rad/s, speed and turn
rate correlated -/
def carCov : Matrix (Fin 5) (Fin 5) ℚ :=
  !![4, 0, 0, 0, 0; 0, 4, 0, 0, 0; 0, 0, 1, 0, 1 / 100; 0, 0, 0, 1 / 100, 0; 0, 0, 1 / 100, 0, 1 / 100]

/-- `C125_kept_ctrv`: a car at 30 m/s.  The predicted covariance of speed and turn rate is 1/100 to two and a half percent,
whatever the duration of the prediction. -/
example (m : Libm) {x y dt : FP} {yaw : m.Ang} {L P' : Matrix (Fin 5) (Fin 5) FP} {r : Option (Fin 5)} {s' : CtrvStateF m}
    (h : IsLltF (finite carCov) L r)
    (ht : IsTransformF (.fin 1) (.fin 2) (.fin 1) (⟨x, y, .fin 30, yaw, .fin (1 / 4)⟩ : CtrvStateF m) L dt s' P') :
    Within (P' 2 4) (1 / 100) (1 / 4000) ∧ Within (P' 2 2) 1 (1 / 200) := by
  have hs : carCovᵀ = carCov := by
    ext i j; fin_cases i <;> fin_cases j <;> rfl
  have hl : ∀ i, 1 / 2 ^ 40 ≤ carCov i i := by
    intro i; fin_cases i <;> norm_num [carCov]
  have key := C125_kept_ctrv (m := m) (z := ![0, 0, 30, 0, 1 / 4]) (σ := ![2, 2, 1, 1 / 10, 1 / 10]) hs hl
    (margin_of_correlations (by norm_num) hs hl (by
      intro i j hij
      fin_cases i <;> fin_cases j <;> first | exact absurd rfl hij | norm_num [carCov]))
    h (by intro i; fin_cases i <;> norm_num) (by intro i; fin_cases i <;> norm_num [carCov])
    (by intro i; fin_cases i <;> norm_num) rfl rfl (by
      rintro j (rfl | rfl)
      · show |(30 : ℚ)| + 3 * 1 ≤ _
        norm_num [abs_of_pos]
      · show |(1 / 4 : ℚ)| + 3 * (1 / 10) ≤ _
        norm_num [abs_of_pos]) ht
  constructor
  · obtain ⟨q, hq, e⟩ := key 2 4 (by simp) (by simp)
    refine ⟨q, hq, e.trans ?_⟩
    show keptErr 1 (|30| + 3 * 1) (1 / 10) (|1 / 4| + 3 * (1 / 10)) ≤ _
    norm_num [keptErr, abs_of_pos]
  · obtain ⟨q, hq, e⟩ := key 2 2 (by simp) (by simp)
    refine ⟨q, hq, e.trans ?_⟩
    show keptErr 1 (|30| + 3 * 1) 1 (|30| + 3 * 1) ≤ _
    norm_num [keptErr, abs_of_pos]

/-- `C125_kept_ctra`: a car at 30 m/s that brakes with 4 m/s², known to 1/2 m/s².  After 2 s the variance of the speed is 2. -/
example (m : Libm) {x y : FP} {yaw : m.Ang} {L P' : Matrix (Fin 6) (Fin 6) FP} {r : Option (Fin 6)} {s' : CtraStateF m}
    (h : IsLltF (finite (diagonal ![4, 4, 1, 1 / 100, 1 / 100, 1 / 4])) L r)
    (ht : IsTransformF (.fin 1) (.fin 2) (.fin 1) (⟨x, y, .fin 30, yaw, .fin 0, .fin (-4)⟩ : CtraStateF m) L (.fin 2) s' P') :
    Within (P' 2 2) 2 (1 / 50) ∧ Within (P' 2 5) (1 / 2) (1 / 100) := by
  have hs : (diagonal ![4, 4, 1, 1 / 100, 1 / 100, 1 / 4] : Matrix (Fin 6) (Fin 6) ℚ)ᵀ =
      diagonal ![4, 4, 1, 1 / 100, 1 / 100, 1 / 4] := diagonal_transpose _
  have hl : ∀ i, 1 / 2 ^ 40 ≤ (diagonal ![4, 4, 1, 1 / 100, 1 / 100, 1 / 4] : Matrix (Fin 6) (Fin 6) ℚ) i i := by
    intro i; rw [diagonal_apply_eq]; fin_cases i <;> norm_num
  have key := C125_kept_ctra (m := m) (z := ![0, 0, 30, 0, 0, -4]) (σ := ![2, 2, 1, 1 / 10, 1 / 10, 1 / 2]) hs hl
    (margin_of_correlations (by norm_num) hs hl (by
      intro i j hij
      rw [diagonal_apply_ne _ hij]
      have h1 := hl i
      have h2 := hl j
      have : (0 : ℚ) ≤ 1 / 2 ^ 40 := by norm_num
      rw [mul_zero, zero_pow two_ne_zero]
      exact mul_nonneg (this.trans h1) (this.trans h2)))
    h (by intro i; fin_cases i <;> norm_num) (by intro i; rw [diagonal_apply_eq]; fin_cases i <;> norm_num)
    (by intro i; fin_cases i <;> norm_num) rfl rfl rfl (T := 2) (by norm_num [abs_of_pos]) rfl (by
      rintro j (rfl | rfl | rfl)
      · show |(30 : ℚ)| + 3 * 1 + (|-4| + 3 * (1 / 2)) * |2| ≤ _
        norm_num [abs_of_pos]
      · show |(0 : ℚ)| + 3 * (1 / 10) ≤ _
        norm_num
      · show |(-4 : ℚ)| + 3 * (1 / 2) ≤ _
        norm_num [abs_of_pos]) ht
  constructor
  · obtain ⟨q, hq, e⟩ := key 2 2 (by simp) (by simp)
    have e1 : speedUp 2 (fun i => speedUp 2 ((diagonal ![4, 4, 1, 1 / 100, 1 / 100, 1 / 4] : Matrix (Fin 6) (Fin 6) ℚ) i) 2) 2 = 2 := by
      decide +kernel
    rw [e1] at e
    refine ⟨q, hq, e.trans ?_⟩
    show keptErr (1 + 1 / 2 * |2|) (|30| + 3 * 1 + (|-4| + 3 * (1 / 2)) * |2|) (1 + 1 / 2 * |2|)
      (|30| + 3 * 1 + (|-4| + 3 * (1 / 2)) * |2|) ≤ _
    norm_num [keptErr, abs_of_pos]
  · obtain ⟨q, hq, e⟩ := key 2 5 (by simp) (by simp)
    have e1 : speedUp 2 (fun i => speedUp 2 ((diagonal ![4, 4, 1, 1 / 100, 1 / 100, 1 / 4] : Matrix (Fin 6) (Fin 6) ℚ) i) 5) 2 = 1 / 2 := by
      decide +kernel
    rw [e1] at e
    refine ⟨q, hq, e.trans ?_⟩
    show keptErr (1 + 1 / 2 * |2|) (|30| + 3 * 1 + (|-4| + 3 * (1 / 2)) * |2|) (1 / 2) (|-4| + 3 * (1 / 2)) ≤ _
    norm_num [keptErr, abs_of_pos]

end Mot.Props
