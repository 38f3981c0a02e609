import Verif.Props.Covers
import Verif.Props.Sensitivity
/-!
# C130: how far from the predicted position the truth can be
-/

namespace Mot.Props

open Mot Matrix Spec Real

private theorem dist_add_le (a b c d : ℝ) :
    √((a + c) ^ 2 + (b + d) ^ 2) ≤ √(a ^ 2 + b ^ 2) + √(c ^ 2 + d ^ 2) := by
  rw [← Complex.norm_add_mul_I, ← Complex.norm_add_mul_I a, ← Complex.norm_add_mul_I c]
  refine le_trans (le_of_eq ?_) (norm_add_le _ _)
  congr 1
  push_cast
  ring

set_option exponentiation.threshold 2000

private theorem covers_sq {n : ℕ} {P : Matrix (Fin n) (Fin n) ℝ} {k : ℝ} {e : Fin n → ℝ}
    (h : Covers P k .univ e) (i : Fin n) : e i ^ 2 ≤ k ^ 2 * P i i := by
  have := h (Pi.single i 1) fun j hj => absurd (Set.mem_univ j) hj
  simpa using this

private theorem covers_abs {n : ℕ} {P : Matrix (Fin n) (Fin n) ℝ} {k : ℝ} (hk : 0 ≤ k) {e : Fin n → ℝ}
    (h : Covers P k .univ e) (i : Fin n) : |e i| ≤ k * √(P i i) := by
  rw [← Real.sqrt_sq_eq_abs, ← Real.sqrt_sq hk, ← Real.sqrt_mul (sq_nonneg k)]
  exact Real.sqrt_le_sqrt (covers_sq h i)

private theorem covers_plane {n : ℕ} {P : Matrix (Fin n) (Fin n) ℝ} {k : ℝ} (hk : 0 ≤ k) {e : Fin n → ℝ}
    (h : Covers P k .univ e) (i j : Fin n) : √(e i ^ 2 + e j ^ 2) ≤ k * √(P i i + P j j) := by
  rw [← Real.sqrt_sq hk, ← Real.sqrt_mul (sq_nonneg k)]
  exact Real.sqrt_le_sqrt (by linarith [covers_sq h i, covers_sq h j])

/-- C130, position, for CTRV objects: if the error of the state is at most `k` standard deviations in every
direction, the distance of the moved truth from the predicted position is at most `k` standard deviations of the
position and `k + ρ` times those of speed, heading and turn rate, each weighted by how far it moves the object.
`ρ` is `√(5 / 7)` for the default parameters. -/
theorem C130_position_ctrv {chol : Chol} (hchol : IsLlt chol) {o p : DynObj CtrvState CtrvCov}
    (hP : o.covariance.PosDef) {α β κ time dt k ρ : ℝ} (hk0 : 0 ≤ k) (hdt : dt = time - o.timestamp)
    (hρ : ρ = √(5 / (α ^ 2 * (5 + β))))
    (h : predict o time (unscentedTransform chol α β κ) = .ok p) {t : CtrvState} {e : Fin 5 → ℝ}
    (ht : SameUpToTurns t.toVec (o.state.toVec + e)) (hk : Covers o.covariance k .univ e) :
    √(((t.next dt).x - p.state.x) ^ 2 + ((t.next dt).y - p.state.y) ^ 2) ≤
      k * √(o.covariance 0 0 + o.covariance 1 1) +
      (k + ρ) * (|dt| * √(o.covariance 2 2) + |o.state.v| * |dt| * √(o.covariance 3 3) +
        |o.state.v| * dt ^ 2 / 2 * √(o.covariance 4 4)) +
      (1 + ρ ^ 2) * (|o.state.v| * dt ^ 2 / 2 * (1 / 2 ^ 1021)) := by
  have hN : 0 < α ^ 2 * (5 + β) := (C42_defined_iff _ _ _ _ _ _ _).1 ⟨_, predict_ok h⟩
  have hρ2 : ρ ^ 2 = 5 / (α ^ 2 * (5 + β)) := by rw [hρ, Real.sq_sqrt (by positivity)]
  have h1 := C126_unscented_ctrv hchol hP hdt h
  rw [← hρ, ← hρ2] at h1
  have t0 : t.x = o.state.x + e 0 := ht 0
  have t1 : t.y = o.state.y + e 1 := ht 1
  have t2 : t.v = o.state.v + e 2 := ht 2
  have t3 : SameDir t.yaw.getAngle (o.state.yaw.getAngle + e 3) := ht 3
  have t4 : t.yawRate = o.state.yawRate + e 4 := ht 4
  have hδ : SameDir (t.yaw.getAngle - o.state.yaw.getAngle) (e 3) := by
    have := t3.sub (SameDir.refl o.state.yaw.getAngle)
    rwa [add_sub_cancel_left] at this
  have h2 := (C126_ctrv o.state t dt hδ).1
  rw [t0, t1, t2, t4, add_sub_cancel_left, add_sub_cancel_left, add_sub_cancel_left, add_sub_cancel_left] at h2
  have h3 := dist_add_le ((t.next dt).x - (o.state.next dt).x) ((t.next dt).y - (o.state.next dt).y)
    ((o.state.next dt).x - p.state.x) ((o.state.next dt).y - p.state.y)
  rw [sub_add_sub_cancel, sub_add_sub_cancel, ← neg_sub p.state.x (o.state.next dt).x,
    ← neg_sub p.state.y (o.state.next dt).y, neg_sq, neg_sq] at h3
  have p0 := covers_plane hk0 hk 0 1
  have p2 := mul_le_mul_of_nonneg_left (covers_abs hk0 hk 2) (abs_nonneg dt)
  have p3 := mul_le_mul_of_nonneg_left (covers_abs hk0 hk 3) (show 0 ≤ |o.state.v| * |dt| by positivity)
  have p4 := mul_le_mul_of_nonneg_left (covers_abs hk0 hk 4) (show 0 ≤ |o.state.v| * dt ^ 2 / 2 by positivity)
  generalize (1 : ℝ) / 2 ^ 1021 = η at *
  linarith

/-- C130, position, for CTRA objects. -/
theorem C130_position_ctra {chol : Chol} (hchol : IsLlt chol) {o p : DynObj CtraState CtraCov}
    (hP : o.covariance.PosDef) {α β κ time dt k ρ : ℝ} (hk0 : 0 ≤ k) (hdt : dt = time - o.timestamp)
    (hρ : ρ = √(6 / (α ^ 2 * (6 + β))))
    (h : predict o time (unscentedTransform chol α β κ) = .ok p) {t : CtraState} {e : Fin 6 → ℝ}
    (ht : SameUpToTurns t.toVec (o.state.toVec + e)) (hk : Covers o.covariance k .univ e) :
    √(((t.next dt).x - p.state.x) ^ 2 + ((t.next dt).y - p.state.y) ^ 2) ≤
      k * √(o.covariance 0 0 + o.covariance 1 1) +
      (k + ρ) * (|dt| * √(o.covariance 2 2) + dt ^ 2 / 2 * √(o.covariance 5 5) +
        (|o.state.v| * |dt| + |o.state.a| * dt ^ 2 / 2) * √(o.covariance 3 3) +
        (|o.state.v| * dt ^ 2 / 2 + |o.state.a| * |dt| ^ 3 / 3) * √(o.covariance 4 4)) +
      (1 + ρ ^ 2) * ((|o.state.v| * dt ^ 2 / 2 + |o.state.a| * |dt| ^ 3 / 3) * (1 / 2 ^ 1021)) := by
  have hN : 0 < α ^ 2 * (6 + β) := (C42_defined_iff _ _ _ _ _ _ _).1 ⟨_, predict_ok h⟩
  have hρ2 : ρ ^ 2 = 6 / (α ^ 2 * (6 + β)) := by rw [hρ, Real.sq_sqrt (by positivity)]
  have h1 := C126_unscented_ctra hchol hP hdt h
  rw [← hρ, ← hρ2] at h1
  have t0 : t.x = o.state.x + e 0 := ht 0
  have t1 : t.y = o.state.y + e 1 := ht 1
  have t2 : t.v = o.state.v + e 2 := ht 2
  have t3 : SameDir t.yaw.getAngle (o.state.yaw.getAngle + e 3) := ht 3
  have t4 : t.yawRate = o.state.yawRate + e 4 := ht 4
  have t5 : t.a = o.state.a + e 5 := ht 5
  have hδ : SameDir (t.yaw.getAngle - o.state.yaw.getAngle) (e 3) := by
    have := t3.sub (SameDir.refl o.state.yaw.getAngle)
    rwa [add_sub_cancel_left] at this
  have h2 := (C126_ctra o.state t dt hδ).1
  rw [t0, t1, t2, t4, t5, add_sub_cancel_left, add_sub_cancel_left, add_sub_cancel_left, add_sub_cancel_left,
    add_sub_cancel_left] at h2
  have h3 := dist_add_le ((t.next dt).x - (o.state.next dt).x) ((t.next dt).y - (o.state.next dt).y)
    ((o.state.next dt).x - p.state.x) ((o.state.next dt).y - p.state.y)
  rw [sub_add_sub_cancel, sub_add_sub_cancel, ← neg_sub p.state.x (o.state.next dt).x,
    ← neg_sub p.state.y (o.state.next dt).y, neg_sq, neg_sq] at h3
  have p0 := covers_plane hk0 hk 0 1
  have p2 := mul_le_mul_of_nonneg_left (covers_abs hk0 hk 2) (abs_nonneg dt)
  have p5 := mul_le_mul_of_nonneg_left (covers_abs hk0 hk 5) (show 0 ≤ dt ^ 2 / 2 by positivity)
  have p3 := mul_le_mul_of_nonneg_left (covers_abs hk0 hk 3)
    (show 0 ≤ |o.state.v| * |dt| + |o.state.a| * dt ^ 2 / 2 by positivity)
  have p4 := mul_le_mul_of_nonneg_left (covers_abs hk0 hk 4)
    (show 0 ≤ |o.state.v| * dt ^ 2 / 2 + |o.state.a| * |dt| ^ 3 / 3 by positivity)
  generalize (1 : ℝ) / 2 ^ 1021 = η at *
  linarith

/-- hypotheses: an object with unit covariance, and a truth that is off by one standard deviation in turn rate -/
example {chol : Chol} : ∃ (o p : DynObj CtrvState CtrvCov) (t : CtrvState) (e : Fin 5 → ℝ), o.covariance.PosDef ∧
    predict o 12 (unscentedTransform chol 1 2 1) = .ok p ∧ SameUpToTurns t.toVec (o.state.toVec + e) ∧
    Covers o.covariance 1 .univ e ∧ e 4 ≠ 0 ∧ o.state.v ≠ 0 := by
  obtain ⟨p, hp, -⟩ := C42_default chol (northbound 5 1) 12
  refine ⟨northbound 5 1, p, ⟨0, 0, 5, Angle.ofRad (π / 2), 1⟩, Pi.single 4 √((1 : Fin 5 → ℝ) 4), ?_, hp, ?_,
    covers_diagonal (fun i => zero_lt_one) 4, by simp, by simp [northbound]⟩
  · exact Matrix.PosDef.diagonal fun i => zero_lt_one
  · intro i
    fin_cases i <;> simp [northbound, CtrvState.toVec]
    exact SameDir.refl _

end Mot.Props
