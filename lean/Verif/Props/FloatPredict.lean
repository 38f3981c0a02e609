import Verif.Proofs.FloatPredict
/-!
# Prediction of objects as it is computed, from end to end (C94)
-/

namespace Mot.Props

open Mot Spec

variable {m : Libm}

/-! ### Results are `float`s -/

theorem conv64_isFloat {x : FP} (hx : ∀ q, x = .fin q → IsFloat q) {q : ℚ} (h : x.conv binary64 = .fin q) :
    x = .fin q ∧ IsFloat q := by
  cases x with
  | nan => simp [FP.conv] at h
  | inf s => simp [FP.conv] at h
  | fin r =>
    have hr := hx r rfl
    rw [hr.conv64] at h
    cases h
    exact ⟨rfl, hr⟩

/-- C94: the states hold `double`s, but every number of a predicted state is a `float`. -/
theorem C94_float_ctrv {α β κ dt : FP} {s s' : CtrvStateF m} {L P' : Matrix (Fin 5) (Fin 5) FP}
    (h : IsTransformF α β κ s L dt s' P') :
    ∀ f ∈ [s'.x, s'.y, s'.v, s'.yawRate], ∀ q, f = .fin q → IsFloat q := by
  obtain ⟨x, hx, -, rfl⟩ := h
  intro f hf q hq
  have key : ∀ j, (x j).conv binary64 = .fin q → IsFloat q := fun j hj =>
    (conv64_isFloat (fun _ => (hx j).isFloat) hj).2
  simp only [List.mem_cons, List.not_mem_nil, or_false] at hf
  rcases hf with rfl | rfl | rfl | rfl
  · exact key 0 hq
  · exact key 1 hq
  · exact key 2 hq
  · exact key 4 hq

/-- C94: likewise for the CTRA model. -/
theorem C94_float_ctra {α β κ dt : FP} {s s' : CtraStateF m} {L P' : Matrix (Fin 6) (Fin 6) FP}
    (h : IsTransformF α β κ s L dt s' P') :
    ∀ f ∈ [s'.x, s'.y, s'.v, s'.yawRate, s'.a], ∀ q, f = .fin q → IsFloat q := by
  obtain ⟨x, hx, -, rfl⟩ := h
  intro f hf q hq
  have key : ∀ j, (x j).conv binary64 = .fin q → IsFloat q := fun j hj =>
    (conv64_isFloat (fun _ => (hx j).isFloat) hj).2
  simp only [List.mem_cons, List.not_mem_nil, or_false] at hf
  rcases hf with rfl | rfl | rfl | rfl | rfl
  · exact key 0 hq
  · exact key 1 hq
  · exact key 2 hq
  · exact key 4 hq
  · exact key 5 hq

/-- `float`s of magnitude at least 2ᵏ are multiples of 2ᵏ⁻²³ -/
theorem isFloat_grid {q : ℚ} (h : IsFloat q) {k : ℤ} (hq : (2 : ℚ) ^ k ≤ |q|) :
    ∃ j : ℤ, q = j * (2 : ℚ) ^ (k - 23) := by
  obtain ⟨a, e, ⟨ha, -, -⟩, rfl, -⟩ := h
  have he : k - 23 ≤ e := by
    by_contra hlt
    push Not at hlt
    have h1 : |(a : ℚ)| < 2 ^ (24 : ℤ) := by exact_mod_cast ha
    have h2 : |(a : ℚ) * 2 ^ e| < 2 ^ (24 : ℤ) * 2 ^ e := by
      rw [abs_mul, abs_of_pos (show (0 : ℚ) < 2 ^ e by positivity)]
      exact mul_lt_mul_of_pos_right h1 (by positivity)
    rw [← zpow_add₀ (by norm_num)] at h2
    have h3 : (2 : ℚ) ^ (24 + e) ≤ 2 ^ k := zpow_le_zpow_right₀ (by norm_num) (by omega)
    linarith
  refine ⟨a * 2 ^ (e - (k - 23)).toNat, ?_⟩
  push_cast
  rw [mul_assoc, ← zpow_natCast, Int.toNat_of_nonneg (by omega), ← zpow_add₀ (by norm_num)]
  congr 2
  ring

/-- C94: a predicted coordinate of at least 4194304 m (northings on map grids are counted from the
equator; those of 38° and more are in this range) is a multiple of half a metre; whatever the
parameters, the covariance, the duration and the library. -/
theorem C94_grid_ctrv {α β κ dt : FP} {s s' : CtrvStateF m} {L P' : Matrix (Fin 5) (Fin 5) FP}
    (h : IsTransformF α β κ s L dt s' P') :
    ∀ f ∈ [s'.x, s'.y], ∀ q, f = .fin q → 4194304 ≤ |q| → ∃ j : ℤ, q = j / 2 := by
  intro f hf q hq hb
  obtain ⟨j, hj⟩ := isFloat_grid (k := 22) (C94_float_ctrv h f
    (by simp only [List.mem_cons, List.not_mem_nil, or_false] at hf ⊢; tauto) q hq)
    (le_trans (by norm_num) hb)
  exact ⟨j, by rw [hj]; norm_num [zpow_neg]; ring⟩

/-- C94: likewise for the CTRA model. -/
theorem C94_grid_ctra {α β κ dt : FP} {s s' : CtraStateF m} {L P' : Matrix (Fin 6) (Fin 6) FP}
    (h : IsTransformF α β κ s L dt s' P') :
    ∀ f ∈ [s'.x, s'.y], ∀ q, f = .fin q → 4194304 ≤ |q| → ∃ j : ℤ, q = j / 2 := by
  intro f hf q hq hb
  obtain ⟨j, hj⟩ := isFloat_grid (k := 22) (C94_float_ctra h f
    (by simp only [List.mem_cons, List.not_mem_nil, or_false] at hf ⊢; tauto) q hq)
    (le_trans (by norm_num) hb)
  exact ⟨j, by rw [hj]; norm_num [zpow_neg]; ring⟩

/-- C94: prediction is not the identity when no time passes: a coordinate that is not a `float`
changes. -/
theorem C94_zero_time {α β κ : FP} {s s' : CtrvStateF m} {L P' : Matrix (Fin 5) (Fin 5) FP} {X : ℚ}
    (hX : s.y = .fin X) (hf : ¬ IsFloat X) (h : IsTransformF α β κ s L (.fin 0) s' P') :
    s'.y ≠ s.y := fun he => hf (C94_float_ctrv h s'.y (by simp) X (he.trans hX))

/-! ### Breakdown -/

theorem rows_col_notFin {n : ℕ} (hn : 1 ≤ n) (hn' : n < 2 ^ 20) {S : Type} [MotionModelF S n] {a b c : ℚ}
    (ha : |a| ≤ 2 ^ 50) (hb : |b| ≤ 2 ^ 50) (h0 : 0 ≤ n + b) (hP : a * a * (n + b) ≤ n / 2 ^ 26)
    (hc : |c| ≤ 2 ^ 100) {s : S} {L : Matrix (Fin n) (Fin n) FP} {dt : FP} {j : Fin n} {x : FP}
    (h : IsMeanF (weightsF n (.fin a) (.fin c) (lambdaF n (.fin a) (.fin b))).1
      ((predictedRowsF s L dt (lambdaF n (.fin a) (.fin b))).map (· j)) x) : x.NotFin := by
  have hl : ((predictedRowsF s L dt (lambdaF n (.fin a) (.fin b))).map (· j)).length = 2 * n + 1 := by
    rw [List.length_map, rows_length]
  rw [(C91_breakdown hn hn' ha hb h0 hP hc).2] at h
  generalize (predictedRowsF s L dt (lambdaF n (.fin a) (.fin b))).map (· j) = col at *
  obtain _ | ⟨c0, col⟩ := col
  · simp at hl
  exact SumsTo.notFin h ⟨_, List.mem_cons_self, notFin_mul (.inl (notFin_inf _))⟩

theorem conv_notFin {f : Fmt} {x : FP} (h : x.NotFin) : (x.conv f).NotFin := by
  cases x with
  | fin q => exact absurd rfl (h q)
  | nan => exact fun q => by simp [FP.conv]
  | inf s => exact fun q => by simp [FP.conv]

/-- C94: `UnscentedTransform{alpha, beta, kappa}` with alpha²(5 + beta) ≤ 5/2²⁶ yields no finite
number at all, whatever the state, the covariance, the duration and the library. -/
theorem C94_breakdown_ctrv {a b c : ℚ} (ha : |a| ≤ 2 ^ 50) (hb : |b| ≤ 2 ^ 50) (h0 : 0 ≤ 5 + b)
    (hP : a * a * (5 + b) ≤ 5 / 2 ^ 26) (hc : |c| ≤ 2 ^ 100) {dt : FP} {s s' : CtrvStateF m}
    {L P' : Matrix (Fin 5) (Fin 5) FP}
    (h : IsTransformF (.fin a) (.fin b) (.fin c) s L dt s' P') :
    ∀ f ∈ [s'.x, s'.y, s'.v, s'.yawRate], ∀ q, f ≠ .fin q := by
  obtain ⟨x, hx, -, rfl⟩ := h
  have key : ∀ j, ((x j).conv binary64).NotFin := fun j =>
    conv_notFin (rows_col_notFin (by norm_num) (by norm_num) ha hb (by simpa using h0)
      (by simpa using hP) hc (hx j))
  intro f hf
  simp only [List.mem_cons, List.not_mem_nil, or_false] at hf
  rcases hf with rfl | rfl | rfl | rfl
  · exact key 0
  · exact key 1
  · exact key 2
  · exact key 4

/-- C94: likewise for the CTRA model. -/
theorem C94_breakdown_ctra {a b c : ℚ} (ha : |a| ≤ 2 ^ 50) (hb : |b| ≤ 2 ^ 50) (h0 : 0 ≤ 6 + b)
    (hP : a * a * (6 + b) ≤ 6 / 2 ^ 26) (hc : |c| ≤ 2 ^ 100) {dt : FP} {s s' : CtraStateF m}
    {L P' : Matrix (Fin 6) (Fin 6) FP}
    (h : IsTransformF (.fin a) (.fin b) (.fin c) s L dt s' P') :
    ∀ f ∈ [s'.x, s'.y, s'.v, s'.yawRate, s'.a], ∀ q, f ≠ .fin q := by
  obtain ⟨x, hx, -, rfl⟩ := h
  have key : ∀ j, ((x j).conv binary64).NotFin := fun j =>
    conv_notFin (rows_col_notFin (by norm_num) (by norm_num) ha hb (by simpa using h0)
      (by simpa using hP) hc (hx j))
  intro f hf
  simp only [List.mem_cons, List.not_mem_nil, or_false] at hf
  rcases hf with rfl | rfl | rfl | rfl | rfl
  · exact key 0
  · exact key 1
  · exact key 2
  · exact key 4
  · exact key 5

/-- C94: a common textbook choice of the parameters (alpha = 10⁻⁴, beta = 2, kappa = 0; here with
the nearest `float` to 10⁻⁴) is among them: after `propagate_to_time` with
`UnscentedTransform{1e-4, 2, 0}`, associating a track with a detection of the same kind
(distinct UUIDs) has undefined behaviour, whatever the objects were. -/
theorem C94_textbook {C C' : Type} {solve : Solver} (hs : IsPermSolver solve)
    (tracks detections : List (Obj2 (CtrvStateF m) C (CtraStateF m) C'))
    (hbig : (scoreTracksAndDetections tracks detections
      (euclidMetric CtrvStateF.pose CtraStateF.pose)).entries.length < 2 ^ 64)
    (hT : (tracks.map TrackOps.uuid).Nodup) (hD : (detections.map TrackOps.uuid).Nodup)
    {t d : Obj2 (CtrvStateF m) C (CtraStateF m) C'} (ht : t ∈ tracks) (hd : d ∈ detections)
    (htd : t.isLeft = d.isLeft)
    (hp : match t with
      | .inl o => ∃ s L dt P', IsTransformF (.fin (13743895 / 2 ^ 37)) (.fin 2) (.fin 0) s L dt o.state P'
      | .inr o => ∃ s L dt P', IsTransformF (.fin (13743895 / 2 ^ 37)) (.fin 2) (.fin 0) s L dt o.state P') :
    (gnnAssociator solve (scoreTracksAndDetections tracks detections
      (euclidMetric CtrvStateF.pose CtraStateF.pose))).IsUb := by
  refine C86_nonfinite_pose hs _ _ tracks detections hbig hT hD ht hd htd
    ⟨t, by simp, _, List.mem_cons_self, ?_⟩
  cases t with
  | inl o =>
    obtain ⟨s, L, dt, P', h⟩ := hp
    exact C94_breakdown_ctrv (by norm_num [abs_of_pos]) (by norm_num [abs_of_pos]) (by norm_num)
      (by norm_num) (by norm_num) h _ List.mem_cons_self
  | inr o =>
    obtain ⟨s, L, dt, P', h⟩ := hp
    exact C94_breakdown_ctra (by norm_num [abs_of_pos]) (by norm_num [abs_of_pos]) (by norm_num)
      (by norm_num) (by norm_num) h _ List.mem_cons_self

/-- C94: the Euclidean score reads position and heading only: speed, turn rate and acceleration of
either object do not matter. -/
theorem C94_score_reads {s s' t t' : CtrvStateF m} {p p' q q' : CtraStateF m}
    (hs : s.x = s'.x ∧ s.y = s'.y ∧ s.yaw = s'.yaw) (ht : t.x = t'.x ∧ t.y = t'.y ∧ t.yaw = t'.yaw)
    (hp : p.x = p'.x ∧ p.y = p'.y ∧ p.yaw = p'.yaw) (hq : q.x = q'.x ∧ q.y = q'.y ∧ q.yaw = q'.yaw) :
    euclidF s.pose t.pose = euclidF s'.pose t'.pose ∧
    euclidF p.pose q.pose = euclidF p'.pose q'.pose := by
  have h1 : ∀ {s s' : CtrvStateF m}, s.x = s'.x ∧ s.y = s'.y ∧ s.yaw = s'.yaw → s.pose = s'.pose := by
    rintro s s' ⟨hx, hy, hw⟩
    unfold CtrvStateF.pose
    rw [hx, hy, hw]
  have h2 : ∀ {s s' : CtraStateF m}, s.x = s'.x ∧ s.y = s'.y ∧ s.yaw = s'.yaw → s.pose = s'.pose := by
    rintro s s' ⟨hx, hy, hw⟩
    unfold CtraStateF.pose
    rw [hx, hy, hw]
  rw [h1 hs, h1 ht, h2 hp, h2 hq]
  exact ⟨rfl, rfl⟩

/-! ### Accuracy of speed, turn rate and acceleration -/

local infixl:65 " ⊞ " => FP.add binary64
local infixl:65 " ⊟ " => FP.sub binary64
local infixl:70 " ⊠ " => FP.mul binary64

theorem conv64_near {d : ℚ} (h : |d| ≤ 2 ^ 100) : ∃ a, FP.conv binary64 (.fin d) = .fin a ∧
    |a - d| ≤ |d| / 2 ^ 53 + 1 / 2 ^ 200 :=
  ⟨_, b64_ofRat (h.trans (by norm_num)), b64_std d⟩

/-- one point of a component that the motion model keeps -/
theorem kept_point {v d D : ℚ} (hd : |d| ≤ D) (hM : |v| + D ≤ 2 ^ 39) :
    (∃ q, FP.conv binary32 (.fin v ⊞ FP.conv binary64 (.fin d)) = .fin q ∧
      |q - (v + d)| ≤ (1 + 1 / 2 ^ 15) / 2 ^ 24 * (|v| + D) + 1 / 2 ^ 149) ∧
    (∃ q, FP.conv binary32 (.fin v ⊟ FP.conv binary64 (.fin d)) = .fin q ∧
      |q - (v - d)| ≤ (1 + 1 / 2 ^ 15) / 2 ^ 24 * (|v| + D) + 1 / 2 ^ 149) := by
  have hv := abs_nonneg v
  have hd0 := abs_nonneg d
  obtain ⟨a, ha, ea⟩ := conv64_near (d := d) (by norm_num at hM ⊢; linarith)
  rw [ha]
  have h1 := abs_add_le (a - d) d
  rw [sub_add_cancel] at h1
  have main : ∀ b c : ℚ, |b - c| ≤ |d| / 2 ^ 53 + 1 / 2 ^ 200 → |c| ≤ |v| + D →
      ∃ q, FP.conv binary32 (FP.ofRat binary64 b) = .fin q ∧
      |q - c| ≤ (1 + 1 / 2 ^ 15) / 2 ^ 24 * (|v| + D) + 1 / 2 ^ 149 := by
    intro b c hbc hc
    have h2 := abs_add_le (b - c) c
    rw [sub_add_cancel] at h2
    rw [b64_ofRat (by norm_num at hM hbc ⊢; linarith)]
    have h3 := b64_std b
    have h4 := abs_sub_le (binary64.round b) b c
    refine conv32_near (h4.trans ?_) hc le_rfl hM
    norm_num at h3 hbc hM ⊢
    linarith
  constructor
  · refine main (v + a) (v + d) (by rwa [add_sub_add_left_eq_sub]) ?_
    have := abs_add_le v d
    linarith
  · refine main (v - a) (v - d) (by rw [sub_sub_sub_cancel_left, abs_sub_comm]; exact ea) ?_
    have := abs_sub v d
    linarith

/-- mean of a component that the motion model keeps -/
theorem kept_mean {n : ℕ} (hn : 1 ≤ n) (hn' : n ≤ 100) {Λ : ℚ} (hL : |Λ| ≤ 2 ^ 20)
    (hD : 1 / 2 ^ 40 ≤ |n + Λ|) {v D : ℚ} {d : Fin n → ℚ} (hd : ∀ j, |d j| ≤ D) (hM : |v| + D ≤ 2 ^ 39)
    (α β : FP) {x : FP} (h : IsMeanF (weightsF n α β (.fin Λ)).1
      (FP.conv binary32 (.fin v) :: (List.finRange n).flatMap fun j =>
        [FP.conv binary32 (.fin v ⊞ FP.conv binary64 (.fin (d j))),
         FP.conv binary32 (.fin v ⊟ FP.conv binary64 (.fin (d j)))]) x) :
    Within x v ((2 * n + 7) / 2 ^ 24 * ((|Λ| + n) / |n + Λ|) * (|v| + D) + 1 / 2 ^ 80) := by
  have hD0 : 0 ≤ D := (abs_nonneg _).trans (hd ⟨0, hn⟩)
  have hv := abs_nonneg v
  choose P hP eP using fun j => (kept_point (hd j) hM).1
  choose Q hQ eQ using fun j => (kept_point (hd j) hM).2
  obtain ⟨r, hr, er⟩ := conv32_near (a := v) (y := v) (δ := 0) (M := |v| + D) (by simp) (by linarith)
    (by positivity) hM
  simp only [hr, hP, hQ] at h
  obtain ⟨q, hq, e⟩ := symm_mean hn hn' hL hD er eP eQ hd hD0
    (by norm_num at hM ⊢; linarith) α β h
  exact ⟨q, hq, e.trans (tail_bound hn' hL hD (by positivity) rfl)⟩

theorem conv64_within {w col : List FP} {x : FP} {y e : ℚ} (hx : IsMeanF w col x)
    (h : Within x y e) : Within (x.conv binary64) y e := by
  obtain ⟨q, rfl, he⟩ := h
  exact ⟨q, (hx.isFloat rfl).conv64, he⟩

/-- C94: the predicted speed of a CTRV object is the speed up to 17/2²⁴ of its size, times the
condition number of the weights, and likewise the turn rate.  `Λ` is the computed parameter lambda,
`dv`, `dw` are the offsets of the sigma points, at most `Dv`, `Dw`. -/
theorem C94_kept_ctrv {α β κ dt : FP} {Λ v w Dv Dw : ℚ} {dv dw : Fin 5 → ℚ} {s s' : CtrvStateF m}
    {L P' : Matrix (Fin 5) (Fin 5) FP} (hΛ : lambdaF 5 α β = .fin Λ) (hL : |Λ| ≤ 2 ^ 20)
    (hD : 1 / 2 ^ 40 ≤ |5 + Λ|) (hv : s.v = .fin v) (hw : s.yawRate = .fin w)
    (hdv : ∀ j, FP.mul binary32 (spreadF 5 (.fin Λ)) (L 2 j) = .fin (dv j)) (hDv : ∀ j, |dv j| ≤ Dv)
    (hdw : ∀ j, FP.mul binary32 (spreadF 5 (.fin Λ)) (L 4 j) = .fin (dw j)) (hDw : ∀ j, |dw j| ≤ Dw)
    (hMv : |v| + Dv ≤ 2 ^ 39) (hMw : |w| + Dw ≤ 2 ^ 39) (h : IsTransformF α β κ s L dt s' P') :
    Within s'.v v (17 / 2 ^ 24 * ((|Λ| + 5) / |5 + Λ|) * (|v| + Dv) + 1 / 2 ^ 80) ∧
    Within s'.yawRate w (17 / 2 ^ 24 * ((|Λ| + 5) / |5 + Λ|) * (|w| + Dw) + 1 / 2 ^ 80) := by
  obtain ⟨x, hx, -, rfl⟩ := h
  have e5 : ((5 : ℕ) : ℤ) = 5 := rfl
  simp only [e5, hΛ] at hx
  have key : ∀ {k : Fin 5} {v D : ℚ} {d : Fin 5 → ℚ}, (∀ j, |d j| ≤ D) → |v| + D ≤ 2 ^ 39 →
      (predictedRowsF s L dt (.fin Λ)).map (· k) = (FP.conv binary32 (.fin v) ::
        (List.finRange 5).flatMap fun j => [FP.conv binary32 (.fin v ⊞ FP.conv binary64 (.fin (d j))),
         FP.conv binary32 (.fin v ⊟ FP.conv binary64 (.fin (d j)))]) →
      Within ((x k).conv binary64) v (17 / 2 ^ 24 * ((|Λ| + 5) / |5 + Λ|) * (|v| + D) + 1 / 2 ^ 80) := by
    intro k v D d hd hM hc
    have hk := hx k
    rw [hc] at hk
    have := kept_mean (n := 5) (by norm_num) (by norm_num) hL (by simpa using hD) hd hM _ _ hk
    have := conv64_within hk this
    norm_num at this ⊢
    exact this
  constructor
  · refine key hDv hMv ?_
    rw [rows_map s L dt _ (by decide), ← hv]
    simp only [← hdv]
    rfl
  · refine key hDw hMw ?_
    rw [rows_map s L dt _ (by decide), ← hw]
    simp only [← hdw]
    rfl

/-- a point of the speed in the CTRA model -/
theorem speed_point {v a T : ℚ} {d e D A : ℚ} (hd : |d| ≤ D) (he : |e| ≤ A) (hT : |T| ≤ 2 ^ 20)
    (hM : |v| + D + (|a| + A) * |T| ≤ 2 ^ 39) (hA : |a| + A ≤ 2 ^ 39) :
    (∃ q, FP.conv binary32 ((.fin v ⊞ FP.conv binary64 (.fin d)) ⊞
        (.fin a ⊞ FP.conv binary64 (.fin e)) ⊠ .fin T) = .fin q ∧
      |q - (v + a * T + (d + e * T))| ≤
        (1 + 1 / 2 ^ 15) / 2 ^ 24 * (|v| + D + (|a| + A) * |T|) + 1 / 2 ^ 149) ∧
    (∃ q, FP.conv binary32 ((.fin v ⊟ FP.conv binary64 (.fin d)) ⊞
        (.fin a ⊟ FP.conv binary64 (.fin e)) ⊠ .fin T) = .fin q ∧
      |q - (v + a * T - (d + e * T))| ≤
        (1 + 1 / 2 ^ 15) / 2 ^ 24 * (|v| + D + (|a| + A) * |T|) + 1 / 2 ^ 149) := by
  have hv := abs_nonneg v
  have ha := abs_nonneg a
  have hd0 := abs_nonneg d
  have he0 := abs_nonneg e
  have hT0 := abs_nonneg T
  have hAT : 0 ≤ (|a| + A) * |T| := mul_nonneg (by linarith) hT0
  -- sum of two rounded terms
  have sum2 : ∀ {u t δ : ℚ}, |t| ≤ δ → |u| + δ ≤ 2 ^ 39 → ∀ σ : ℚ, |σ| = 1 →
      ∃ b, FP.ofRat binary64 (u + σ * binary64.round t) = .fin b ∧
        |b - (u + σ * t)| ≤ (|u| + δ) / 2 ^ 51 + 1 / 2 ^ 198 := by
    intro u t δ ht hM σ hσ
    have hu := abs_nonneg u
    have ht0 := abs_nonneg t
    have e1 := b64_std t
    have e2 : |(u + σ * binary64.round t) - (u + σ * t)| ≤ |t| / 2 ^ 53 + 1 / 2 ^ 200 := by
      rw [add_sub_add_left_eq_sub, ← mul_sub, abs_mul, hσ, one_mul]
      exact e1
    have e3 : |u + σ * t| ≤ |u| + δ := by
      refine (abs_add_le _ _).trans ?_
      rw [abs_mul, hσ, one_mul]
      linarith
    have e4 := abs_add_le ((u + σ * binary64.round t) - (u + σ * t)) (u + σ * t)
    rw [sub_add_cancel] at e4
    have e5 := b64_std (u + σ * binary64.round t)
    have e6 := abs_sub_le (binary64.round (u + σ * binary64.round t)) (u + σ * binary64.round t) (u + σ * t)
    generalize u + σ * binary64.round t = g at *
    generalize u + σ * t = g' at *
    refine ⟨_, b64_ofRat ?_, ?_⟩
    · norm_num at hM e2 ⊢
      linarith
    · norm_num at hM e2 e5 ⊢
      linarith
  have main : ∀ σ : ℚ, |σ| = 1 → ∀ b c, FP.ofRat binary64 (v + σ * binary64.round d) = .fin b →
      FP.ofRat binary64 (a + σ * binary64.round e) = .fin c →
      |b - (v + σ * d)| ≤ (|v| + D) / 2 ^ 51 + 1 / 2 ^ 198 →
      |c - (a + σ * e)| ≤ (|a| + A) / 2 ^ 51 + 1 / 2 ^ 198 →
      ∃ q, FP.conv binary32 (.fin b ⊞ .fin c ⊠ .fin T) = .fin q ∧
        |q - (v + a * T + σ * (d + e * T))| ≤
          (1 + 1 / 2 ^ 15) / 2 ^ 24 * (|v| + D + (|a| + A) * |T|) + 1 / 2 ^ 149 := by
    intro σ hσ b c _ _ eb ec
    have hb1 : |v + σ * d| ≤ |v| + D := by
      refine (abs_add_le _ _).trans ?_
      rw [abs_mul, hσ, one_mul]
      linarith
    have hc1 : |(a + σ * e) * T| ≤ (|a| + A) * |T| := by
      rw [abs_mul]
      refine mul_le_mul_of_nonneg_right ((abs_add_le _ _).trans ?_) hT0
      rw [abs_mul, hσ, one_mul]
      linarith
    -- the product
    have p1 : |c * T - (a + σ * e) * T| ≤ ((|a| + A) * |T|) / 2 ^ 51 + 1 / 2 ^ 178 := by
      rw [← sub_mul, abs_mul]
      have := mul_le_mul_of_nonneg_right ec hT0
      refine this.trans ?_
      rw [add_mul, div_mul_eq_mul_div]
      norm_num at hT ⊢
      linarith
    have p2 := abs_add_le (c * T - (a + σ * e) * T) ((a + σ * e) * T)
    rw [sub_add_cancel] at p2
    have p3 := b64_std (c * T)
    rw [show v + a * T + σ * (d + e * T) = (v + σ * d) + (a + σ * e) * T by ring]
    have pm : FP.mul binary64 (.fin c) (.fin T) = FP.ofRat binary64 (c * T) := rfl
    rw [pm]
    generalize c * T = g at *
    generalize (a + σ * e) * T = h at *
    generalize v + σ * d = u at *
    have p4 : FP.ofRat binary64 g = .fin (binary64.round g) :=
      b64_ofRat (by norm_num at hM p1 ⊢; linarith)
    have p5 := abs_sub_le (binary64.round g) g (h)
    have p6 : |binary64.round g - h| ≤ ((|a| + A) * |T|) / 2 ^ 50 + 1 / 2 ^ 177 := by
      norm_num at hM p1 p3 ⊢
      linarith
    rw [p4]
    -- the sum
    have q1 : |(b + binary64.round g) - (u + h)| ≤
        (|v| + D + (|a| + A) * |T|) / 2 ^ 50 + 1 / 2 ^ 176 := by
      rw [show (b + binary64.round g) - (u + h) = (b - u) + (binary64.round g - h) by ring]
      refine (abs_add_le _ _).trans ?_
      norm_num at p6 eb ⊢
      linarith
    have q2 : |u + h| ≤ |v| + D + (|a| + A) * |T| := by
      exact (abs_add_le _ _).trans (by linarith)
    have q3 := abs_add_le ((b + binary64.round g) - (u + h))
      (u + h)
    rw [sub_add_cancel] at q3
    rw [show FP.add binary64 (.fin b) (.fin (binary64.round g)) = FP.ofRat binary64 (b + binary64.round g) from rfl]
    generalize b + binary64.round g = y at *
    generalize u + h = y' at *
    have q4 := b64_std y
    have q5 : FP.ofRat binary64 y = .fin (binary64.round y) :=
      b64_ofRat (by norm_num at hM q1 ⊢; linarith)
    rw [q5]
    have q6 := abs_sub_le (binary64.round y) y y'
    refine conv32_near (q6.trans ?_) q2 le_rfl hM
    norm_num at hM q1 q4 ⊢
    linarith
  have cd : FP.conv binary64 (.fin d) = .fin (binary64.round d) :=
    b64_ofRat (by norm_num at hM ⊢; linarith)
  have ce : FP.conv binary64 (.fin e) = .fin (binary64.round e) :=
    b64_ofRat (by norm_num at hA ⊢; linarith)
  rw [cd, ce]
  constructor
  · obtain ⟨b, hb, eb⟩ := sum2 hd (by linarith : |v| + D ≤ 2 ^ 39) 1 abs_one
    obtain ⟨c, hc, ec⟩ := sum2 he hA 1 abs_one
    have := main 1 abs_one b c hb hc eb ec
    rw [one_mul] at hb hc this
    rw [show FP.add binary64 (.fin v) (.fin (binary64.round d)) = .fin b from hb,
      show FP.add binary64 (.fin a) (.fin (binary64.round e)) = .fin c from hc]
    exact this
  · have h1 : |(-1 : ℚ)| = 1 := by norm_num
    obtain ⟨b, hb, eb⟩ := sum2 hd (by linarith : |v| + D ≤ 2 ^ 39) (-1) h1
    obtain ⟨c, hc, ec⟩ := sum2 he hA (-1) h1
    have := main (-1) h1 b c hb hc eb ec
    rw [neg_one_mul, ← sub_eq_add_neg] at hb hc this
    rw [show FP.sub binary64 (.fin v) (.fin (binary64.round d)) = .fin b from hb,
      show FP.sub binary64 (.fin a) (.fin (binary64.round e)) = .fin c from hc]
    exact this

theorem speed_mean {n : ℕ} (hn : 1 ≤ n) (hn' : n ≤ 100) {Λ : ℚ} (hL : |Λ| ≤ 2 ^ 20)
    (hD : 1 / 2 ^ 40 ≤ |n + Λ|) {v a T D A : ℚ} {d e : Fin n → ℚ} (hd : ∀ j, |d j| ≤ D)
    (he : ∀ j, |e j| ≤ A) (hT : |T| ≤ 2 ^ 20) (hM : |v| + D + (|a| + A) * |T| ≤ 2 ^ 39)
    (hA : |a| + A ≤ 2 ^ 39) (α β : FP) {x : FP} (h : IsMeanF (weightsF n α β (.fin Λ)).1
      (FP.conv binary32 (.fin v ⊞ .fin a ⊠ .fin T) :: (List.finRange n).flatMap fun j =>
        [FP.conv binary32 ((.fin v ⊞ FP.conv binary64 (.fin (d j))) ⊞
            (.fin a ⊞ FP.conv binary64 (.fin (e j))) ⊠ .fin T),
         FP.conv binary32 ((.fin v ⊟ FP.conv binary64 (.fin (d j))) ⊞
            (.fin a ⊟ FP.conv binary64 (.fin (e j))) ⊠ .fin T)]) x) :
    Within x (v + a * T) ((2 * n + 7) / 2 ^ 24 * ((|Λ| + n) / |n + Λ|) *
      (|v| + D + (|a| + A) * |T|) + 1 / 2 ^ 80) := by
  have hD0 : 0 ≤ D := (abs_nonneg _).trans (hd ⟨0, hn⟩)
  have hA0 : 0 ≤ A := (abs_nonneg _).trans (he ⟨0, hn⟩)
  have hv := abs_nonneg v
  have hT0 := abs_nonneg T
  have hAT := mul_nonneg hA0 hT0
  have haT := mul_nonneg (abs_nonneg a) hT0
  choose P hP eP using fun j => (speed_point (hd j) (he j) hT hM hA).1
  choose Q hQ eQ using fun j => (speed_point (hd j) (he j) hT hM hA).2
  have h1 := abs_add_le v (a * T)
  rw [abs_mul] at h1
  have hu : |v + a * T| + (D + A * |T|) ≤ |v| + D + (|a| + A) * |T| := by
    rw [add_mul]
    linarith
  have hs : ∀ j, |d j + e j * T| ≤ D + A * |T| := fun j => by
    refine (abs_add_le _ _).trans (add_le_add (hd j) ?_)
    rw [abs_mul]
    exact mul_le_mul_of_nonneg_right (he j) hT0
  obtain ⟨r, hr, er⟩ : ∃ q, FP.conv binary32 (.fin v ⊞ .fin a ⊠ .fin T) = .fin q ∧
      |q - (v + a * T)| ≤ (1 + 1 / 2 ^ 15) / 2 ^ 24 * (|v| + D + (|a| + A) * |T|) + 1 / 2 ^ 149 := by
    have b1 := b64_std (a * T)
    rw [abs_mul] at b1
    have b2 : FP.mul binary64 (.fin a) (.fin T) = .fin (binary64.round (a * T)) := by
      refine b64_ofRat ?_
      rw [abs_mul]
      norm_num at hM ⊢
      linarith
    have b3 : |(v + binary64.round (a * T)) - (v + a * T)| ≤ |a| * |T| / 2 ^ 53 + 1 / 2 ^ 200 := by
      rwa [add_sub_add_left_eq_sub]
    have b4 := abs_add_le ((v + binary64.round (a * T)) - (v + a * T)) (v + a * T)
    rw [sub_add_cancel] at b4
    rw [b2, show FP.add binary64 (.fin v) (.fin (binary64.round (a * T))) =
      FP.ofRat binary64 (v + binary64.round (a * T)) from rfl]
    rw [add_mul] at hM hu ⊢
    generalize v + binary64.round (a * T) = y at *
    generalize v + a * T = y' at *
    have b5 := b64_std y
    rw [b64_ofRat (by norm_num at hM b3 ⊢; linarith)]
    have b6 := abs_sub_le (binary64.round y) y y'
    refine conv32_near (b6.trans ?_) (by linarith) le_rfl hM
    norm_num at b3 b5 hM ⊢
    linarith
  simp only [hr, hP, hQ] at h
  obtain ⟨q, hq, ee⟩ := symm_mean hn hn' hL hD er eP eQ hs (by positivity) (by
    generalize |v| + D + (|a| + A) * |T| = M at *
    norm_num at hM ⊢
    linarith) α β h
  refine ⟨q, hq, ee.trans (le_trans ?_ (tail_bound hn' hL hD
    (M := |v| + D + (|a| + A) * |T|) (by positivity) rfl))⟩
  have hK : 0 ≤ (2 * n + 5) / 2 ^ 24 * ((|Λ| + n) / |n + Λ|) := by positivity
  have := mul_le_mul_of_nonneg_left (add_le_add_left hu ((1 + 1 / 2 ^ 15) / 2 ^ 24 *
    (|v| + D + (|a| + A) * |T|) + 1 / 2 ^ 149)) hK
  linarith

/-- C94: in the CTRA model the predicted turn rate and acceleration are those of the object and
the predicted speed is v + a·T, up to 19/2²⁴ of their size, times the condition number of the
weights. -/
theorem C94_kept_ctra {α β κ : FP} {Λ v w a T Dv Dw Da : ℚ} {dv dw da : Fin 6 → ℚ} {s s' : CtraStateF m}
    {L P' : Matrix (Fin 6) (Fin 6) FP} (hΛ : lambdaF 6 α β = .fin Λ) (hL : |Λ| ≤ 2 ^ 20)
    (hD : 1 / 2 ^ 40 ≤ |6 + Λ|) (hv : s.v = .fin v) (hw : s.yawRate = .fin w) (ha : s.a = .fin a)
    (hdv : ∀ j, FP.mul binary32 (spreadF 6 (.fin Λ)) (L 2 j) = .fin (dv j)) (hDv : ∀ j, |dv j| ≤ Dv)
    (hdw : ∀ j, FP.mul binary32 (spreadF 6 (.fin Λ)) (L 4 j) = .fin (dw j)) (hDw : ∀ j, |dw j| ≤ Dw)
    (hda : ∀ j, FP.mul binary32 (spreadF 6 (.fin Λ)) (L 5 j) = .fin (da j)) (hDa : ∀ j, |da j| ≤ Da)
    (hMv : |v| + Dv + (|a| + Da) * |T| ≤ 2 ^ 39) (hMw : |w| + Dw ≤ 2 ^ 39) (hMa : |a| + Da ≤ 2 ^ 39)
    (hT : |T| ≤ 2 ^ 20) (h : IsTransformF α β κ s L (.fin T) s' P') :
    Within s'.v (v + a * T) (19 / 2 ^ 24 * ((|Λ| + 6) / |6 + Λ|) * (|v| + Dv + (|a| + Da) * |T|) +
      1 / 2 ^ 80) ∧
    Within s'.yawRate w (19 / 2 ^ 24 * ((|Λ| + 6) / |6 + Λ|) * (|w| + Dw) + 1 / 2 ^ 80) ∧
    Within s'.a a (19 / 2 ^ 24 * ((|Λ| + 6) / |6 + Λ|) * (|a| + Da) + 1 / 2 ^ 80) := by
  obtain ⟨x, hx, -, rfl⟩ := h
  have e6 : ((6 : ℕ) : ℤ) = 6 := rfl
  simp only [e6, hΛ] at hx
  have key : ∀ {k : Fin 6} {v D : ℚ} {d : Fin 6 → ℚ}, (∀ j, |d j| ≤ D) → |v| + D ≤ 2 ^ 39 →
      (predictedRowsF s L (.fin T) (.fin Λ)).map (· k) = (FP.conv binary32 (.fin v) ::
        (List.finRange 6).flatMap fun j => [FP.conv binary32 (.fin v ⊞ FP.conv binary64 (.fin (d j))),
         FP.conv binary32 (.fin v ⊟ FP.conv binary64 (.fin (d j)))]) →
      Within ((x k).conv binary64) v (19 / 2 ^ 24 * ((|Λ| + 6) / |6 + Λ|) * (|v| + D) + 1 / 2 ^ 80) := by
    intro k v D d hd hM hc
    have hk := hx k
    rw [hc] at hk
    have := kept_mean (n := 6) (by norm_num) (by norm_num) hL (by simpa using hD) hd hM _ _ hk
    have := conv64_within hk this
    norm_num at this ⊢
    exact this
  refine ⟨?_, key hDw hMw ?_, key hDa hMa ?_⟩
  · have hk := hx 2
    rw [rows_map s L _ _ (by decide)] at hk
    have := speed_mean (n := 6) (by norm_num) (by norm_num) hL (by simpa using hD) hDv hDa hT hMv hMa
      _ _ (x := x 2) (by
        rw [← hv, ← ha]
        simp only [← hdv, ← hda]
        exact hk)
    have := conv64_within hk this
    norm_num at this ⊢
    exact this
  · rw [rows_map s L _ _ (by decide), ← hw]
    simp only [← hdw]
    rfl
  · rw [rows_map s L _ _ (by decide), ← ha]
    simp only [← hda]
    rfl

theorem offset_default {r l ℓ : ℚ} (hr0 : 0 ≤ r) (hr : r ≤ 23 / 8) (hl : |l| ≤ ℓ) (hℓ : ℓ ≤ 2 ^ 30) :
    ∃ d, FP.mul binary32 (.fin r) (.fin l) = .fin d ∧ |d| ≤ 3 * ℓ + 1 / 2 ^ 150 := by
  have h0 := abs_nonneg l
  have h1 : |r * l| ≤ 23 / 8 * ℓ := by
    rw [abs_mul, abs_of_nonneg hr0]
    exact mul_le_mul hr hl h0 (by norm_num)
  have h2 := b32_std (r * l)
  have h3 := abs_add_le (binary32.round (r * l) - r * l) (r * l)
  rw [sub_add_cancel] at h3
  rw [show FP.mul binary32 (.fin r) (.fin l) = FP.ofRat binary32 (r * l) from rfl]
  generalize r * l = g at *
  refine ⟨_, b32_ofRat ?_, ?_⟩
  · norm_num at hℓ ⊢
    linarith
  · norm_num at h2 ⊢
    linarith

/-- C94: with `default_unscented_transform`, for a CTRV object whose speed row of the Cholesky factor
has entries of at most `ℓ` (the standard deviation of the speed is the length of that row). -/
theorem C94_default_ctrv {dt : FP} {v ℓ : ℚ} {l : Fin 5 → ℚ} {s s' : CtrvStateF m}
    {L P' : Matrix (Fin 5) (Fin 5) FP} (hv : s.v = .fin v) (hl : ∀ j, L 2 j = .fin (l j))
    (hℓ : ∀ j, |l j| ≤ ℓ) (hv' : |v| ≤ 2 ^ 30) (hℓ' : ℓ ≤ 2 ^ 30)
    {w k : ℚ} {g : Fin 5 → ℚ} (hw : s.yawRate = .fin w) (hg : ∀ j, L 4 j = .fin (g j))
    (hk : ∀ j, |g j| ≤ k) (hw' : |w| ≤ 2 ^ 30) (hk' : k ≤ 2 ^ 30)
    (h : IsTransformF (.fin 1) (.fin 2) (.fin 1) s L dt s' P') :
    Within s'.v v (17 / 2 ^ 24 * (|v| + 3 * ℓ) + 1 / 2 ^ 79) ∧
    Within s'.yawRate w (17 / 2 ^ 24 * (|w| + 3 * k) + 1 / 2 ^ 79) := by
  have hsp : spreadF 5 (.fin 2) = .fin (11097085 / 4194304) := by decide +kernel
  choose d hd eD using fun j => offset_default (r := 11097085 / 4194304) (by norm_num) (by norm_num)
    (hℓ j) hℓ'
  choose f hf eF using fun j => offset_default (r := 11097085 / 4194304) (by norm_num) (by norm_num)
    (hk j) hk'
  obtain ⟨⟨q, hq, e1⟩, ⟨q', hq', e2⟩⟩ := C94_kept_ctrv (Λ := 2) (dv := d) (dw := f)
    (by decide +kernel) (by norm_num [abs_of_pos]) (by norm_num [abs_of_pos]) hv hw
    (fun j => by rw [hsp, hl j]; exact hd j) eD (fun j => by rw [hsp, hg j]; exact hf j) eF
    (by norm_num at hv' hℓ' ⊢; linarith) (by norm_num at hw' hk' ⊢; linarith) h
  have hone : (|(2 : ℚ)| + 5) / |5 + 2| = 1 := by norm_num [abs_of_pos]
  rw [hone] at e1 e2
  refine ⟨⟨q, hq, e1.trans ?_⟩, ⟨q', hq', e2.trans ?_⟩⟩ <;> norm_num <;> linarith

/-! ### Examples -/

/-- a prediction exists for every input -/
theorem C94_exists {S : Type} {n : ℕ} [MotionModelF S n] (α β κ dt : FP) (s : S)
    (L : Matrix (Fin n) (Fin n) FP) : ∃ s' P', IsTransformF α β κ s L dt s' P' := by
  have hr : predictedRowsF s L dt (lambdaF n α β) ≠ [] := by
    intro h
    have := rows_length s L dt (lambdaF n α β)
    rw [h] at this
    simp at this
  obtain ⟨r, rs, hrs⟩ := List.exists_cons_of_ne_nil hr
  set rows := predictedRowsF s L dt (lambdaF n α β) with hrows
  have hm : ∀ j : Fin n, ∃ x, IsMeanF (weightsF n α κ (lambdaF n α β)).1 (rows.map (· j)) x := fun j =>
    ⟨_, leftSum_sums (by rw [hrs]; simp [weightsF])⟩
  choose x hx using hm
  have hc : ∀ j k : Fin n, ∃ p, IsCovF (weightsF n α κ (lambdaF n α β)).2 (rows.map (· j))
      (rows.map (· k)) (x j) (x k) p := fun j k => ⟨_, leftSum_sums (by rw [hrs]; simp [weightsF])⟩
  choose P hP using hc
  exact ⟨_, P, x, hx, hP, rfl⟩

/-- a northing of 4500000.25 m is a `double` but not a `float` -/
example : IsDouble (4500000 + 1 / 4) ∧ ¬ IsFloat (4500000 + 1 / 4) := by
  refine ⟨⟨(18000001 : ℤ) * 2 ^ 28, -30, ⟨by norm_num, by norm_num, .inl (by norm_num)⟩, by norm_num [zpow_neg], ?_⟩,
    fun h => ?_⟩
  · refine lt_trans (b := (2 : ℚ) ^ (100 : ℤ)) ?_ (zpow_lt_zpow_right₀ (by norm_num) (by norm_num))
    norm_num [abs_of_pos]
  · obtain ⟨j, hj⟩ := isFloat_grid (k := 22) h (by norm_num [abs_of_pos])
    have : (18000001 : ℚ) = 2 * j := by
      have := congrArg (· * 4) hj
      norm_num [zpow_neg] at this
      linarith
    have : (18000001 : ℤ) = 2 * j := by exact_mod_cast this
    omega

/-- the hypotheses of `C94_breakdown_ctrv` -/
example : |(13743895 / 2 ^ 37 : ℚ)| ≤ 2 ^ 50 ∧ (13743895 / 2 ^ 37 : ℚ) * (13743895 / 2 ^ 37) * (5 + 2) ≤ 5 / 2 ^ 26 ∧
    (13743895 / 2 ^ 37 : ℚ) * (13743895 / 2 ^ 37) * (6 + 2) ≤ 6 / 2 ^ 26 ∧
    FP.ofRat binary32 (1 / 10000) = .fin (13743895 / 2 ^ 37) := by
  refine ⟨by norm_num [abs_of_pos], by norm_num, by norm_num, by decide +kernel⟩

/-- 30 m/s, standard deviation 2 m/s: the predicted speed is within 0.1 mm/s -/
example (s : CtrvStateF m) (hv : s.v = .fin 30) (hw : s.yawRate = .fin 0) (dt : FP) :
    ∃ s' P', IsTransformF (.fin 1) (.fin 2) (.fin 1) s (fun i j => if i = j then .fin 2 else .fin 0) dt s' P' ∧
      Within s'.v 30 (1 / 10000) := by
  obtain ⟨s', P', h⟩ := C94_exists (.fin 1) (.fin 2) (.fin 1) dt s
    (fun i j : Fin 5 => if i = j then .fin 2 else .fin 0)
  refine ⟨s', P', h, ?_⟩
  obtain ⟨⟨q, hq, e⟩, -⟩ := C94_default_ctrv (l := fun j => if (2 : Fin 5) = j then 2 else 0) (ℓ := 2)
    (g := fun j => if (4 : Fin 5) = j then 2 else 0) (k := 2) hv
    (fun j => by by_cases h : (2 : Fin 5) = j <;> simp [h])
    (fun j => by by_cases h : (2 : Fin 5) = j <;> simp [h]) (by norm_num [abs_of_pos]) (by norm_num) hw
    (fun j => by by_cases h : (4 : Fin 5) = j <;> simp [h])
    (fun j => by by_cases h : (4 : Fin 5) = j <;> simp [h]) (by norm_num) (by norm_num) h
  exact ⟨q, hq, e.trans (by norm_num [abs_of_pos])⟩

end Mot.Props
