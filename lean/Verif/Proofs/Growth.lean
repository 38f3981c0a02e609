import Verif.Proofs.Sensitivity
import Mathlib.Algebra.QuadraticDiscriminant
/-!
# How the covariance of positions grows under prediction
-/

namespace Mot

open Matrix Spec

/-- a positive functional on functions of the state -/
structure IsPositive {S : Type} (M : (S → ℝ) → ℝ) : Prop where
  add : ∀ f g, M (fun p => f p + g p) = M f + M g
  mul : ∀ (c : ℝ) f, M (fun p => c * f p) = c * M f
  mono : ∀ f g, (∀ p, f p ≤ g p) → M f ≤ M g

namespace IsPositive
variable {S : Type} {M : (S → ℝ) → ℝ} (h : IsPositive M)
include h

theorem nonneg {f : S → ℝ} (hf : ∀ p, 0 ≤ f p) : 0 ≤ M f := by
  have h0 := h.mul 0 f
  have h1 := h.mono (fun p => 0 * f p) f fun p => by rw [zero_mul]; exact hf p
  rwa [h0, zero_mul] at h1

/-- Cauchy-Schwarz -/
theorem cauchy (f g : S → ℝ) : (M fun p => f p * g p) ^ 2 ≤ (M fun p => f p ^ 2) * M fun p => g p ^ 2 := by
  have hq : ∀ t : ℝ, 0 ≤ (M fun p => f p ^ 2) * (t * t) + 2 * (M fun p => f p * g p) * t + M fun p => g p ^ 2 := by
    intro t
    have := h.nonneg (f := fun p => (t * t) * f p ^ 2 + ((2 * t) * (f p * g p) + g p ^ 2)) fun p => by
      nlinarith [sq_nonneg (t * f p + g p)]
    rw [h.add, h.mul, h.add, h.mul] at this
    linarith
  have hd := discrim_le_zero hq
  unfold discrim at hd
  nlinarith

/-- Minkowski -/
theorem minkowski (f g : S → ℝ) :
    √(M fun p => (f p + g p) ^ 2) ≤ √(M fun p => f p ^ 2) + √(M fun p => g p ^ 2) := by
  have hf := h.nonneg (f := fun p => f p ^ 2) fun p => sq_nonneg _
  have hg := h.nonneg (f := fun p => g p ^ 2) fun p => sq_nonneg _
  rw [Real.sqrt_le_left (by positivity)]
  have e : (fun p => (f p + g p) ^ 2) = fun p => f p ^ 2 + (2 * (f p * g p) + g p ^ 2) := by
    funext p; ring
  rw [e, h.add, h.add, h.mul]
  have hc : (M fun p => f p * g p) ≤ √(M fun p => f p ^ 2) * √(M fun p => g p ^ 2) := by
    rw [← Real.sqrt_mul hf]
    exact Real.le_sqrt_of_sq_le (h.cauchy f g)
  have h1 := Real.sq_sqrt hf
  have h2 := Real.sq_sqrt hg
  nlinarith

theorem sqrt_mul_le {c : ℝ} (hc : 0 ≤ c) (f : S → ℝ) :
    √(M fun p => (c * f p) ^ 2) = c * √(M fun p => f p ^ 2) := by
  have e : (fun p => (c * f p) ^ 2) = fun p => c ^ 2 * f p ^ 2 := by funext p; ring
  rw [e, h.mul, Real.sqrt_mul (sq_nonneg c), Real.sqrt_sq hc]

theorem sqrt_mono {f g : S → ℝ} (hf : ∀ p, 0 ≤ f p) (hfg : ∀ p, f p ≤ g p) :
    √(M fun p => f p ^ 2) ≤ √(M fun p => g p ^ 2) :=
  Real.sqrt_le_sqrt (h.mono _ _ fun p => pow_le_pow_left₀ (hf p) (hfg p) 2)

end IsPositive

section
variable {S : Type} {n : ℕ} [MotionModel S n]

/-- sum over the sigma points other than the state, weighted -/
noncomputable def sigmaSum (s : S) (L : Matrix (Fin n) (Fin n) ℝ) (N : ℝ) (f : S → ℝ) : ℝ :=
  1 / (2 * N) * ∑ j,
    (f (MotionModel.add s (MotionModel.ofVec (√N • L.col j))) +
     f (MotionModel.sub s (MotionModel.ofVec (√N • L.col j))))

theorem sigmaSum_isPositive (s : S) (L : Matrix (Fin n) (Fin n) ℝ) {N : ℝ} (hN : 0 < N) :
    IsPositive (sigmaSum s L N) where
  add f g := by
    unfold sigmaSum
    rw [← mul_add, ← Finset.sum_add_distrib]
    congr 1
    exact Finset.sum_congr rfl fun j _ => by ring
  mul c f := by
    unfold sigmaSum
    simp only [← mul_add]
    rw [← Finset.mul_sum]
    ring
  mono f g h := by
    unfold sigmaSum
    refine mul_le_mul_of_nonneg_left (Finset.sum_le_sum fun j _ => add_le_add (h _) (h _)) ?_
    positivity

theorem sigmaSum_const (s : S) (L : Matrix (Fin n) (Fin n) ℝ) {N : ℝ} (hN : 0 < N) (c : ℝ) :
    sigmaSum s L N (fun _ => c) = n / N * c := by
  unfold sigmaSum
  rw [Finset.sum_const, Finset.card_univ, Fintype.card_fin, nsmul_eq_mul]
  field_simp
  ring

theorem sigmaSum_dev (s : S) {L P : Matrix (Fin n) (Fin n) ℝ} (hL : L * Lᵀ = P) {N : ℝ} (hN : 0 < N)
    {i : Fin n} (g : S → ℝ) (hg : ∀ v : Fin n → ℝ,
      |g (MotionModel.add s (MotionModel.ofVec v))| ≤ |v i| ∧
      |g (MotionModel.sub s (MotionModel.ofVec v))| ≤ |v i|) :
    sigmaSum s L N (fun p => g p ^ 2) ≤ P i i := by
  have e : P i i = ∑ j, L i j ^ 2 := by
    rw [← hL, mul_apply]
    exact Finset.sum_congr rfl fun j _ => by rw [transpose_apply]; ring
  unfold sigmaSum
  rw [e]
  have hs : ∀ j, g (MotionModel.add s (MotionModel.ofVec (√N • L.col j))) ^ 2 +
      g (MotionModel.sub s (MotionModel.ofVec (√N • L.col j))) ^ 2 ≤ 2 * N * L i j ^ 2 := by
    intro j
    obtain ⟨h1, h2⟩ := hg (√N • L.col j)
    have h3 := sq_le_sq.2 h1
    have h4 := sq_le_sq.2 h2
    rw [Pi.smul_apply, smul_eq_mul, Matrix.col_apply, mul_pow, Real.sq_sqrt hN.le] at h3 h4
    linarith
  calc _ ≤ 1 / (2 * N) * ∑ j, 2 * N * L i j ^ 2 :=
        mul_le_mul_of_nonneg_left (Finset.sum_le_sum fun j _ => hs j) (by positivity)
    _ = _ := by rw [← Finset.mul_sum]; field_simp

theorem sigmaSum_var [MotionLaws S n] (s : S) {L P : Matrix (Fin n) (Fin n) ℝ} (hL : L * Lᵀ = P) {N : ℝ}
    (hN : 0 < N) {i : Fin n} (hi : i.1 ≠ 3) :
    sigmaSum s L N (fun p => (MotionModel.toVec p i - MotionModel.toVec s i) ^ 2) = P i i := by
  have e : P i i = ∑ j, L i j ^ 2 := by
    rw [← hL, mul_apply]
    exact Finset.sum_congr rfl fun j _ => by rw [transpose_apply]; ring
  unfold sigmaSum
  simp only [sigma_entry s _ hi, add_sub_cancel_left, sub_sub_cancel_left, Pi.smul_apply, Matrix.col_apply,
    smul_eq_mul, neg_sq, mul_pow, Real.sq_sqrt hN.le]
  rw [e]
  calc 1 / (2 * N) * ∑ j, (N * L i j ^ 2 + N * L i j ^ 2) = 1 / (2 * N) * ∑ j, 2 * N * L i j ^ 2 := by
        congr 1; exact Finset.sum_congr rfl fun j _ => by ring
    _ = _ := by rw [← Finset.mul_sum]; field_simp

private theorem list_sum_apply (l : List (Matrix (Fin n) (Fin n) ℝ)) (i j : Fin n) :
    l.sum i j = (l.map fun A => A i j).sum := by
  induction l with
  | nil => rfl
  | cons A l ih => rw [List.sum_cons, Matrix.add_apply, ih, List.map_cons, List.sum_cons]

private theorem flatMap_sum {ι : Type} (l : List ι) (f g : ι → ℝ) :
    (l.flatMap fun i => [f i, g i]).sum = (l.map fun i => f i + g i).sum := by
  induction l with
  | nil => rfl
  | cons a l ih =>
    rw [List.flatMap_cons, List.sum_append, ih, List.map_cons, List.sum_cons]
    simp

/-- predicted state and variances, for components other than the heading -/
theorem ukfPredict_variance (chol : Chol) (s : S) (P : Matrix (Fin n) (Fin n) ℝ) {dt α β κ N : ℝ}
    (hN : N = α ^ 2 * (n + κ)) (h0 : 0 < N) :
    ∃ x C, ukfPredict chol s P dt α β κ = .ok (MotionModel.ofVec x, C) ∧ ∀ i : Fin n, i.1 ≠ 3 →
      x i - MotionModel.toVec (MotionModel.next s dt) i = sigmaSum s (chol n P) N (fun p =>
        MotionModel.toVec (MotionModel.next p dt) i - MotionModel.toVec (MotionModel.next s dt) i) ∧
      C i i = sigmaSum s (chol n P) N (fun p =>
        (MotionModel.toVec (MotionModel.next p dt) i - MotionModel.toVec (MotionModel.next s dt) i) ^ 2) +
        (β - α ^ 2) * (x i - MotionModel.toVec (MotionModel.next s dt) i) ^ 2 := by
  have hl := lambda_sum n α κ
  rw [ukfPredict_eq chol s P dt α β κ (by rw [← hN]; exact h0)]
  unfold predictedRows
  rw [List.map_cons, computeUt_cons _ _ _ _ _ (by rw [List.length_map, sigmaLoop_length])]
  rw [← hN] at hl ⊢
  have hl' : generateLambda n α κ = N - n := by linarith
  rw [hl']
  set r₀ := rotateYaw (MotionModel.toVec (MotionModel.next s dt)) with hr₀
  set l := (sigmaLoop s (chol n P) √N).map fun p => rotateYaw (MotionModel.toVec (MotionModel.next p dt)) with hlist
  set x := ((N - n) / N) • r₀ + (1 / (2 * N) : ℝ) • l.sum with hx
  refine ⟨_, _, rfl, fun i hi => ?_⟩
  set f : S → ℝ := fun p => MotionModel.toVec (MotionModel.next p dt) i with hf
  have hr : ∀ p, rotateYaw (MotionModel.toVec (MotionModel.next p dt)) i = f p := fun p => rotateYaw_of_ne hi
  have hsum : ∀ g : (Fin n → ℝ) → ℝ, (l.map g).sum = ∑ j,
      (g (rotateYaw (MotionModel.toVec (MotionModel.next
        (MotionModel.add s (MotionModel.ofVec (√N • (chol n P).col j))) dt))) +
       g (rotateYaw (MotionModel.toVec (MotionModel.next
        (MotionModel.sub s (MotionModel.ofVec (√N • (chol n P).col j))) dt)))) := by
    intro g
    rw [hlist]
    unfold sigmaLoop
    rw [List.map_map, List.map_flatMap]
    simp only [List.map_cons, List.map_nil, Function.comp]
    rw [flatMap_sum, ← Fin.sum_univ_def]
  have hli : l.sum i = (l.map fun v => v i).sum := by
    generalize l = l'
    induction l' with
    | nil => rfl
    | cons v l ih => rw [List.sum_cons, Pi.add_apply, ih, List.map_cons, List.sum_cons]
  have e1 : ∀ (a b : Fin n → ℝ) (c : ℝ), ∑ j, (a j - c + (b j - c)) = ∑ j, (a j + b j) - n * (2 * c) := by
    intro a b c
    rw [show (fun j => a j - c + (b j - c)) = fun j => a j + b j - 2 * c by funext j; ring,
      Finset.sum_sub_distrib, Finset.sum_const, Finset.card_univ, Fintype.card_fin, nsmul_eq_mul]
  have hm : x i - f s = sigmaSum s (chol n P) N fun p => f p - f s := by
    rw [hx, Pi.add_apply, Pi.smul_apply, Pi.smul_apply, smul_eq_mul, smul_eq_mul, hli, hsum]
    simp only [hr₀, hr]
    unfold sigmaSum
    rw [e1]
    field_simp
    ring
  refine ⟨hm, ?_⟩
  rw [Matrix.add_apply, Matrix.smul_apply, Matrix.smul_apply, list_sum_apply, List.map_map, smul_eq_mul,
    smul_eq_mul, vecMulVec_apply]
  have hcomp : ((fun A : Matrix (Fin n) (Fin n) ℝ => A i i) ∘ fun p => vecMulVec (p - x) (p - x)) =
      fun p => (p i - x i) ^ 2 := by
    funext p
    show vecMulVec (p - x) (p - x) i i = _
    rw [vecMulVec_apply, Pi.sub_apply]
    ring
  rw [hcomp, hsum]
  simp only [hr₀, hr, Pi.sub_apply]
  set μ := x i - f s with hμ
  have hxi : x i = f s + μ := by rw [hμ]; ring
  rw [hxi]
  have e2 : ∀ (a b : Fin n → ℝ), ∑ j, ((a j - (f s + μ)) ^ 2 + (b j - (f s + μ)) ^ 2) =
      ∑ j, ((a j - f s) ^ 2 + (b j - f s) ^ 2) - 2 * μ * ∑ j, (a j - f s + (b j - f s)) + n * (2 * μ ^ 2) := by
    intro a b
    rw [Finset.mul_sum, ← Finset.sum_sub_distrib,
      show (n : ℝ) * (2 * μ ^ 2) = ∑ _j : Fin n, 2 * μ ^ 2 by
        rw [Finset.sum_const, Finset.card_univ, Fintype.card_fin, nsmul_eq_mul], ← Finset.sum_add_distrib]
    exact Finset.sum_congr rfl fun j _ => by ring
  rw [e2]
  unfold sigmaSum at hm ⊢
  have hm' : 1 / (2 * N) * (2 * μ * ∑ j, (f (MotionModel.add s (MotionModel.ofVec (√N • (chol n P).col j))) - f s +
      (f (MotionModel.sub s (MotionModel.ofVec (√N • (chol n P).col j))) - f s))) = 2 * μ ^ 2 := by
    linear_combination -2 * μ * hm
  have e3 : (N - n) / N = 1 - n / N := by rw [sub_div, div_self h0.ne']
  rw [e3]
  change _ = 1 / (2 * N) * ∑ j, ((f (MotionModel.add s (MotionModel.ofVec (√N • (chol n P).col j))) - f s) ^ 2 +
      (f (MotionModel.sub s (MotionModel.ofVec (√N • (chol n P).col j))) - f s) ^ 2) + (β - α ^ 2) * μ ^ 2
  linear_combination -hm'

private theorem sqrt_two_le (a b c d : ℝ) :
    √((a + c) ^ 2 + (b + d) ^ 2) ≤ √(a ^ 2 + b ^ 2) + √(c ^ 2 + d ^ 2) := by
  rw [← Complex.norm_add_mul_I, ← Complex.norm_add_mul_I a, ← Complex.norm_add_mul_I c]
  refine le_trans (le_of_eq ?_) (norm_add_le _ _)
  congr 1
  push_cast
  ring

private theorem sqrt_shift {V a d : ℝ} (hV : 0 ≤ V) (hd : 0 ≤ d) :
    √(V + a * d ^ 2) ≤ √V + √(max 0 a) * d ∧ √V ≤ √(V + a * d ^ 2) + √(max 0 (-a)) * d := by
  have hp : ∀ {A B m : ℝ}, 0 ≤ B → B ≤ max A 0 + max 0 m * d ^ 2 → √B ≤ √A + √(max 0 m) * d := by
    intro A B m hB h
    have hA := Real.sqrt_nonneg A
    have hm := Real.sqrt_nonneg (max 0 m)
    refine Real.sqrt_le_left (by positivity) |>.2 (h.trans ?_)
    have h1 : max A 0 ≤ √A ^ 2 := by
      rcases le_total 0 A with hA | hA
      · rw [max_eq_left hA, Real.sq_sqrt hA]
      · rw [max_eq_right hA]; positivity
    have h2 := Real.sq_sqrt (le_max_left 0 m)
    have h3 : 0 ≤ √A * (√(max 0 m) * d) := by positivity
    nlinarith
  constructor
  · by_cases hB : 0 ≤ V + a * d ^ 2
    · refine hp hB ?_
      have := mul_le_mul_of_nonneg_right (le_max_right 0 a) (sq_nonneg d)
      linarith [le_max_left V 0]
    · rw [Real.sqrt_eq_zero_of_nonpos (not_le.1 hB).le]
      positivity
  · refine hp hV ?_
    have := mul_le_mul_of_nonneg_right (le_max_right 0 (-a)) (sq_nonneg d)
    linarith [le_max_left (V + a * d ^ 2) 0]

/-- The standard deviation of the position changes by at most the sensitivities times the
standard deviations. -/
theorem ukfPredict_growth [MotionLaws S n] {chol : Chol} (hchol : IsLlt chol) (s : S)
    {P : Matrix (Fin n) (Fin n) ℝ} (hP : P.PosDef) {dt α β κ N : ℝ} (hNe : N = α ^ 2 * (n + κ)) (hN : 0 < N)
    {i₀ i₁ k l y w : Fin n} (h0 : i₀.1 ≠ 3) (h1 : i₁.1 ≠ 3) (hk : k.1 ≠ 3) (hl : l.1 ≠ 3)
    (hy : y.1 = 3) (hw : w.1 ≠ 3) {ck cl cy cw e : ℝ} (hck : 0 ≤ ck) (hcl : 0 ≤ cl) (hcy : 0 ≤ cy)
    (hcw : 0 ≤ cw) (he : 0 ≤ e)
    (hb : ∀ (p : S) (δ : ℝ), SameDir (MotionModel.toVec p y - MotionModel.toVec s y) δ →
      √((MotionModel.toVec (MotionModel.next p dt) i₀ - MotionModel.toVec (MotionModel.next s dt) i₀ -
          (MotionModel.toVec p i₀ - MotionModel.toVec s i₀)) ^ 2 +
        (MotionModel.toVec (MotionModel.next p dt) i₁ - MotionModel.toVec (MotionModel.next s dt) i₁ -
          (MotionModel.toVec p i₁ - MotionModel.toVec s i₁)) ^ 2) ≤
      ck * |MotionModel.toVec p k - MotionModel.toVec s k| +
        cl * |MotionModel.toVec p l - MotionModel.toVec s l| + cy * |δ| +
        cw * (|MotionModel.toVec p w - MotionModel.toVec s w| + e)) :
    ∃ x C, ukfPredict chol s P dt α β κ = .ok (MotionModel.ofVec x, C) ∧ ∃ d : ℝ,
      d = √((x i₀ - MotionModel.toVec (MotionModel.next s dt) i₀) ^ 2 +
        (x i₁ - MotionModel.toVec (MotionModel.next s dt) i₁) ^ 2) ∧
      √(C i₀ i₀ + C i₁ i₁) ≤ √(P i₀ i₀ + P i₁ i₁) + (ck * √(P k k) + cl * √(P l l) + cy * √(P y y) +
        cw * (√(P w w) + √(n / N) * e)) + √(max 0 (β - α ^ 2)) * d ∧
      √(P i₀ i₀ + P i₁ i₁) ≤ √(C i₀ i₀ + C i₁ i₁) + (ck * √(P k k) + cl * √(P l l) + cy * √(P y y) +
        cw * (√(P w w) + √(n / N) * e)) + √(max 0 (α ^ 2 - β)) * d := by
  obtain ⟨x, C, h, hxC⟩ := ukfPredict_variance chol s P (dt := dt) (β := β) hNe hN
  refine ⟨x, C, h, _, rfl, ?_⟩
  set L := chol n P with hLd
  have hL : L * Lᵀ = P := (hchol n P hP).factor
  have hM := sigmaSum_isPositive s L hN
  have hconst : sigmaSum s L N (fun _ => e ^ 2) = n / N * e ^ 2 := sigmaSum_const s L hN _
  have hdev : ∀ i : Fin n, i.1 ≠ 3 → √(sigmaSum s L N fun p =>
      |MotionModel.toVec p i - MotionModel.toVec s i| ^ 2) = √(P i i) := by
    intro i hi
    simp only [sq_abs]
    rw [sigmaSum_var s hL hN hi]
  let g : S → ℝ := fun p => ((MotionModel.toVec p y - MotionModel.toVec s y : ℝ) : Real.Angle).toReal
  have hgy : √(sigmaSum s L N fun p => |g p| ^ 2) ≤ √(P y y) := by
    simp only [sq_abs]
    refine Real.sqrt_le_sqrt (sigmaSum_dev s hL hN g ?_)
    intro v
    have a1 := MotionLaws.toVec_add s v y
    have a2 := MotionLaws.toVec_sub s v y
    rw [if_pos hy] at a1 a2
    constructor
    · refine abs_toReal_le ?_
      have := a1.sub (SameDir.refl (MotionModel.toVec s y))
      rwa [Pi.add_apply, add_sub_cancel_left] at this
    · rw [← abs_neg (v y)]
      refine abs_toReal_le ?_
      have := a2.sub (SameDir.refl (MotionModel.toVec s y))
      rwa [Pi.sub_apply, sub_sub_cancel_left] at this
  have hv0 := sigmaSum_var s hL hN h0
  have hv1 := sigmaSum_var s hL hN h1
  generalize sigmaSum s L N = M at hM hxC hconst hdev hgy hv0 hv1
  let f : S → Fin n → ℝ := fun p i => MotionModel.toVec (MotionModel.next p dt) i
  let u : S → Fin n → ℝ := fun p i => MotionModel.toVec p i - MotionModel.toVec s i
  let G : S → ℝ := fun p => √((f p i₀ - f s i₀) ^ 2 + (f p i₁ - f s i₁) ^ 2)
  let U : S → ℝ := fun p => √(u p i₀ ^ 2 + u p i₁ ^ 2)
  let F : S → ℝ := fun p => √((f p i₀ - f s i₀ - u p i₀) ^ 2 + (f p i₁ - f s i₁ - u p i₁) ^ 2)
  have hU : M (fun p => U p ^ 2) = P i₀ i₀ + P i₁ i₁ := by
    rw [← hv0, ← hv1, ← hM.add]
    congr 1
    funext p
    exact Real.sq_sqrt (by positivity)
  have hG : M (fun p => G p ^ 2) = M (fun p => (f p i₀ - f s i₀) ^ 2) + M (fun p => (f p i₁ - f s i₁) ^ 2) := by
    rw [← hM.add]
    congr 1
    funext p
    exact Real.sq_sqrt (by positivity)
  have hC : C i₀ i₀ + C i₁ i₁ = M (fun p => G p ^ 2) + (β - α ^ 2) *
      √((x i₀ - MotionModel.toVec (MotionModel.next s dt) i₀) ^ 2 +
        (x i₁ - MotionModel.toVec (MotionModel.next s dt) i₁) ^ 2) ^ 2 := by
    rw [(hxC i₀ h0).2, (hxC i₁ h1).2, hG, Real.sq_sqrt (by positivity)]
    ring
  obtain ⟨s1, s2⟩ := sqrt_shift (V := M fun p => G p ^ 2) (a := β - α ^ 2)
    (d := √((x i₀ - MotionModel.toVec (MotionModel.next s dt) i₀) ^ 2 +
        (x i₁ - MotionModel.toVec (MotionModel.next s dt) i₁) ^ 2))
    (hM.nonneg fun p => sq_nonneg _) (Real.sqrt_nonneg _)
  rw [← hC] at s1 s2
  rw [neg_sub] at s2
  have m1 : √(M fun p => G p ^ 2) ≤ √(M fun p => U p ^ 2) + √(M fun p => F p ^ 2) := by
    refine (hM.sqrt_mono (fun p => Real.sqrt_nonneg _) fun p => ?_).trans (hM.minkowski U F)
    have := sqrt_two_le (u p i₀) (u p i₁) (f p i₀ - f s i₀ - u p i₀) (f p i₁ - f s i₁ - u p i₁)
    rwa [add_sub_cancel, add_sub_cancel] at this
  have m2 : √(M fun p => U p ^ 2) ≤ √(M fun p => G p ^ 2) + √(M fun p => F p ^ 2) := by
    refine (hM.sqrt_mono (fun p => Real.sqrt_nonneg _) fun p => ?_).trans (hM.minkowski G F)
    have := sqrt_two_le (f p i₀ - f s i₀) (f p i₁ - f s i₁) (-(f p i₀ - f s i₀ - u p i₀))
      (-(f p i₁ - f s i₁ - u p i₁))
    rw [neg_sq, neg_sq, neg_sub, neg_sub, add_sub_cancel, add_sub_cancel] at this
    exact this
  have m3 : √(M fun p => F p ^ 2) ≤ ck * √(P k k) + cl * √(P l l) + cy * √(P y y) +
      cw * (√(P w w) + √(n / N) * e) := by
    refine (hM.sqrt_mono (g := fun p => ck * |u p k| + cl * |u p l| + cy * |g p| + cw * (|u p w| + e))
      (fun p => Real.sqrt_nonneg _) fun p => hb p (g p) (sameDir_toReal _)).trans ?_
    refine (hM.minkowski _ _).trans (add_le_add ((hM.minkowski _ _).trans (add_le_add
      ((hM.minkowski _ _).trans (add_le_add ?_ ?_)) ?_)) ?_)
    · rw [hM.sqrt_mul_le hck, ← hdev k hk]
    · rw [hM.sqrt_mul_le hcl, ← hdev l hl]
    · rw [hM.sqrt_mul_le hcy]
      exact mul_le_mul_of_nonneg_left hgy hcy
    · rw [hM.sqrt_mul_le hcw]
      refine mul_le_mul_of_nonneg_left ((hM.minkowski _ _).trans (add_le_add ?_ ?_)) hcw
      · rw [← hdev w hw]
      · rw [hconst, Real.sqrt_mul (by positivity), Real.sqrt_sq he]
  rw [hU] at m1 m2
  constructor <;> linarith

end

end Mot
