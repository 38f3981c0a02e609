import Verif.Spec.FloatPredict
import Verif.Proofs.FloatPredict
import Verif.Props.FloatCtra
import Mathlib.Analysis.SpecialFunctions.Trigonometric.Bounds
/-!
# Computed means against exact means of real numbers; headings
-/

namespace Mot

open Spec Mot.Props

theorem utMean_sub_le {n : ℕ} {Λ : ℝ} (hD : (n : ℝ) + Λ ≠ 0) {y0 z0 η : ℝ} {ys zs : List ℝ}
    (h0 : |z0 - y0| ≤ η) (h : List.Forall₂ (fun z y => |z - y| ≤ η) zs ys) (hl : ys.length = 2 * n) :
    |utMean n Λ z0 zs - utMean n Λ y0 ys| ≤ utCond n Λ * η := by
  have hs : |zs.sum - ys.sum| ≤ ys.length * η := by
    clear hl
    induction h with
    | nil => simp
    | @cons a b l r hab _ ih =>
      rw [List.sum_cons, List.sum_cons, List.length_cons]
      have := abs_add_le (a - b) (l.sum - r.sum)
      rw [show a + l.sum - (b + r.sum) = a - b + (l.sum - r.sum) by ring]
      push_cast
      linarith
  rw [hl] at hs
  push_cast at hs
  have hp : 0 < |(n : ℝ) + Λ| := abs_pos.2 hD
  unfold utMean utCond
  rw [← sub_div, show Λ * z0 + zs.sum / 2 - (Λ * y0 + ys.sum / 2) =
    Λ * (z0 - y0) + (zs.sum - ys.sum) / 2 by ring, abs_div, div_mul_eq_mul_div]
  refine div_le_div_of_nonneg_right ((abs_add_le _ _).trans ?_) hp.le
  rw [abs_mul, abs_div, abs_two]
  have := mul_le_mul_of_nonneg_left h0 (abs_nonneg Λ)
  linarith

/-- computed mean of `float`s near real numbers -/
theorem mean_near {n : ℕ} (hn : 1 ≤ n) (hn' : n ≤ 100) {Λ : ℚ} (hL : |Λ| ≤ 2 ^ 20)
    (hD : 1 / 2 ^ 40 ≤ |n + Λ|) {B : ℚ} (hB : B ≤ 2 ^ 40) {c0 : ℚ} {cs : List ℚ} {y0 η : ℝ} {ys : List ℝ}
    (h0 : |c0| ≤ B) (hc : ∀ c ∈ cs, |c| ≤ B) (e0 : |(c0 : ℝ) - y0| ≤ η)
    (he : List.Forall₂ (fun (c : ℚ) y => |(c : ℝ) - y| ≤ η) cs ys) (hl : ys.length = 2 * n) (α β : FP) {x : FP}
    (h : IsMeanF (weightsF n α β (.fin Λ)).1 (.fin c0 :: cs.map .fin) x) :
    ∃ q : ℚ, x = .fin q ∧ |(q : ℝ) - utMean n Λ y0 ys| ≤
      utCond n Λ * ((2 * n + 5) / 2 ^ 24 * B + η) + 1 / 2 ^ 100 := by
  have hlen : cs.length = 2 * n := by rw [he.length_eq, hl]
  obtain ⟨q, hq, e⟩ := C92_prediction hn hn' hL hD hB hlen h0 hc α β h
  refine ⟨q, hq, ?_⟩
  have hDp : 0 < |(n : ℚ) + Λ| := lt_of_lt_of_le (by norm_num) hD
  have hD0 : (n : ℝ) + Λ ≠ 0 := by exact_mod_cast abs_pos.1 hDp
  have e' : |(q : ℝ) - utMean n Λ c0 (cs.map (fun c : ℚ => (c : ℝ)))| ≤
      utCond n Λ * ((2 * n + 5) / 2 ^ 24 * B) + 1 / 2 ^ 100 := by
    have := (Rat.cast_le (K := ℝ)).2 e
    push_cast at this
    unfold utMean utCond
    refine (le_of_eq ?_).trans (this.trans (le_of_eq ?_))
    · congr 4
    · ring
  have h1 := utMean_sub_le hD0 e0 (zs := cs.map (fun c : ℚ => (c : ℝ))) (ys := ys)
    (by rw [List.forall₂_map_left_iff]; exact he) hl
  have h2 := abs_sub_le (q : ℝ) (utMean n Λ c0 (cs.map (fun c : ℚ => (c : ℝ)))) (utMean n Λ y0 ys)
  rw [mul_add]
  linarith

/-- terms of a covariance -/
theorem cov_terms {θ τj τk Dj Dk μj μk : ℝ} {xj xk : ℚ} (hθ : 0 ≤ θ) (hτj : 0 ≤ τj) (hτk : 0 ≤ τk)
    (hDj : 0 ≤ Dj) (hDk : 0 ≤ Dk) :
    ∀ {ws : List ℚ} {Ws : List (ℝ × ℝ)} {cj ck : List ℚ} {yj yk : List ℝ},
    List.Forall₂ (fun (w : ℚ) (W : ℝ × ℝ) => |(w : ℝ) - W.1| ≤ θ * W.2 ∧ |W.1| ≤ W.2) ws Ws →
    List.Forall₂ (fun (c : ℚ) y => |((c - xj : ℚ) : ℝ) - (y - μj)| ≤ τj ∧ |y - μj| ≤ Dj) cj yj →
    List.Forall₂ (fun (c : ℚ) y => |((c - xk : ℚ) : ℝ) - (y - μk)| ≤ τk ∧ |y - μk| ≤ Dk) ck yk →
    let terms := List.zipWith (fun c d => (c - xj) * d) cj (List.zipWith (fun w c => w * (c - xk)) ws ck)
    |((terms.sum : ℚ) : ℝ) - (List.zipWith (fun (W : ℝ × ℝ) u => W.1 * u) Ws
        (List.zipWith (fun y z => (y - μj) * (z - μk)) yj yk)).sum| ≤
      (Ws.map Prod.snd).sum * ((1 + θ) * ((Dj + τj) * (Dk + τk) - Dj * Dk) + θ * (Dj * Dk)) ∧
    (((terms.map (|·|)).sum : ℚ) : ℝ) ≤ (Ws.map Prod.snd).sum * ((1 + θ) * ((Dj + τj) * (Dk + τk))) := by
  have hS : 0 ≤ (Dj + τj) * (Dk + τk) - Dj * Dk := by
    have : (Dj + τj) * (Dk + τk) - Dj * Dk = Dj * τk + Dk * τj + τj * τk := by ring
    rw [this]
    positivity
  have hS' : 0 ≤ (1 + θ) * ((Dj + τj) * (Dk + τk) - Dj * Dk) + θ * (Dj * Dk) := by positivity
  intro ws Ws cj ck yj yk hw
  induction hw generalizing cj ck yj yk with
  | nil => intro h1 h2; simp
  | @cons w W ws Ws hw hws ih =>
    intro h1 h2 terms
    have hΩ : 0 ≤ (Ws.map Prod.snd).sum := by
      clear ih terms
      induction hws with
      | nil => simp
      | cons h _ ih => rw [List.map_cons, List.sum_cons]; linarith [(abs_nonneg _).trans h.2]
    have hW0 : 0 ≤ W.2 := (abs_nonneg _).trans hw.2
    have nil : |((0 : ℚ) : ℝ) - 0| ≤ ((W :: Ws).map Prod.snd).sum *
        ((1 + θ) * ((Dj + τj) * (Dk + τk) - Dj * Dk) + θ * (Dj * Dk)) ∧
        ((0 : ℚ) : ℝ) ≤ ((W :: Ws).map Prod.snd).sum * ((1 + θ) * ((Dj + τj) * (Dk + τk))) := by
      rw [List.map_cons, List.sum_cons]
      simp only [Rat.cast_zero, sub_zero, abs_zero]
      constructor <;> positivity
    cases h1 with
    | nil => simpa [terms] using nil
    | @cons c y cj yj h1 h1s => cases h2 with
      | nil => simpa [terms] using nil
      | @cons c' z ck yk h2 h2s =>
        obtain ⟨i1, i2⟩ := ih h1s h2s
        simp only [terms, List.zipWith_cons_cons, List.sum_cons, List.map_cons]
        generalize (List.zipWith (fun c d => (c - xj) * d) cj
          (List.zipWith (fun w c => w * (c - xk)) ws ck)) = tl at *
        generalize (List.zipWith (fun (W : ℝ × ℝ) u => W.1 * u) Ws
          (List.zipWith (fun y z => (y - μj) * (z - μk)) yj yk)).sum = rl at *
        have k1 : |((c - xj : ℚ) : ℝ)| ≤ Dj + τj := by
          have := abs_add_le (((c - xj : ℚ) : ℝ) - (y - μj)) (y - μj)
          rw [sub_add_cancel] at this
          linarith [h1.1, h1.2]
        have k2 : |((c' - xk : ℚ) : ℝ)| ≤ Dk + τk := by
          have := abs_add_le (((c' - xk : ℚ) : ℝ) - (z - μk)) (z - μk)
          rw [sub_add_cancel] at this
          linarith [h2.1, h2.2]
        have k3 : |(w : ℝ)| ≤ (1 + θ) * W.2 := by
          have := abs_add_le ((w : ℝ) - W.1) W.1
          rw [sub_add_cancel] at this
          linarith [hw.1, hw.2]
        have k4 : |((c - xj : ℚ) : ℝ) * ((c' - xk : ℚ) : ℝ)| ≤ (Dj + τj) * (Dk + τk) := by
          rw [abs_mul]
          exact mul_le_mul k1 k2 (abs_nonneg _) (by positivity)
        have k5 : |((c - xj : ℚ) : ℝ) * ((c' - xk : ℚ) : ℝ) - (y - μj) * (z - μk)| ≤
            (Dj + τj) * (Dk + τk) - Dj * Dk := by
          have e : ((c - xj : ℚ) : ℝ) * ((c' - xk : ℚ) : ℝ) - (y - μj) * (z - μk) =
              (((c - xj : ℚ) : ℝ) - (y - μj)) * ((c' - xk : ℚ) : ℝ) +
              (y - μj) * (((c' - xk : ℚ) : ℝ) - (z - μk)) := by ring
          rw [e]
          refine (abs_add_le _ _).trans ?_
          rw [abs_mul, abs_mul]
          have m1 := mul_le_mul h1.1 k2 (abs_nonneg _) hτj
          have m2 := mul_le_mul h1.2 h2.1 (abs_nonneg _) hDj
          have e2 : (Dj + τj) * (Dk + τk) - Dj * Dk = τj * (Dk + τk) + Dj * τk := by ring
          linarith
        have k6 : |(y - μj) * (z - μk)| ≤ Dj * Dk := by
          rw [abs_mul]
          exact mul_le_mul h1.2 h2.2 (abs_nonneg _) hDj
        constructor
        · rw [Rat.cast_add, Rat.cast_mul, Rat.cast_mul]
          rw [show ((c - xj : ℚ) : ℝ) * (w * ((c' - xk : ℚ) : ℝ)) + ((tl.sum : ℚ) : ℝ) -
            (W.1 * ((y - μj) * (z - μk)) + rl) =
            w * (((c - xj : ℚ) : ℝ) * ((c' - xk : ℚ) : ℝ) - (y - μj) * (z - μk)) +
            (w - W.1) * ((y - μj) * (z - μk)) + (((tl.sum : ℚ) : ℝ) - rl) by ring]
          refine (abs_add_le _ _).trans ?_
          rw [add_mul]
          refine add_le_add ((abs_add_le _ _).trans ?_) i1
          rw [abs_mul, abs_mul]
          have m1 := mul_le_mul k3 k5 (abs_nonneg _) (by positivity)
          have m2 := mul_le_mul hw.1 k6 (abs_nonneg _) (by positivity)
          refine (add_le_add m1 m2).trans (le_of_eq (by ring))
        · rw [Rat.cast_add, add_mul]
          refine add_le_add ?_ i2
          rw [show (c - xj) * (w * (c' - xk)) = w * ((c - xj) * (c' - xk)) by ring, abs_mul]
          rw [Rat.cast_mul, Rat.cast_abs, Rat.cast_abs, Rat.cast_mul]
          refine (mul_le_mul k3 k4 (abs_nonneg _) (by positivity)).trans (le_of_eq (by ring))

theorem zipWith_replicate_sum (W : ℝ × ℝ) (l : List ℝ) (k : ℕ) (h : l.length = k) :
    (List.zipWith (fun (W : ℝ × ℝ) u => W.1 * u) (List.replicate k W) l).sum = W.1 * l.sum := by
  induction l generalizing k with
  | nil => simp
  | cons a l ih =>
    obtain ⟨k, rfl⟩ : ∃ j, k = j + 1 := ⟨l.length, by simpa using h.symm⟩
    rw [List.replicate_succ, List.zipWith_cons_cons, List.sum_cons, List.sum_cons,
      ih k (by simpa using h), mul_add]

/-- a computed row of the matrix of points against an exact one -/
def RowNear {n : ℕ} (B : Fin n → ℚ) (ε : Fin n → ℝ) (row : Fin n → FP) (Y : Fin n → ℝ) : Prop :=
  ∀ j, ∃ c : ℚ, row j = .fin c ∧ |c| ≤ B j ∧ |(c : ℝ) - Y j| ≤ ε j

theorem RowNear.column {n : ℕ} {B : Fin n → ℚ} {ε : Fin n → ℝ} {rows : List (Fin n → FP)}
    {Ys : List (Fin n → ℝ)} (h : List.Forall₂ (RowNear B ε) rows Ys) (j : Fin n) :
    ∃ cs : List ℚ, rows.map (· j) = cs.map .fin ∧ (∀ c ∈ cs, |c| ≤ B j) ∧
      List.Forall₂ (fun (c : ℚ) y => |(c : ℝ) - y| ≤ ε j) cs (Ys.map (· j)) := by
  induction h with
  | nil => exact ⟨[], rfl, by simp, .nil⟩
  | cons h _ ih =>
    obtain ⟨cs, h1, h2, h3⟩ := ih
    obtain ⟨c, c1, c2, c3⟩ := h j
    refine ⟨c :: cs, by simp [h1, c1], ?_, .cons c3 h3⟩
    intro d hd
    rcases List.mem_cons.1 hd with rfl | hd
    · exact c2
    · exact h2 d hd

section
variable {n : ℕ} {a b Λ : ℚ} {B : Fin n → ℚ} {ε : Fin n → ℝ} {rows : List (Fin n → FP)} {Y0 : Fin n → ℝ}
  {Ys : List (Fin n → ℝ)}

theorem rows_mean (hn : 1 ≤ n) (hn' : n ≤ 100) (hL : |Λ| ≤ 2 ^ 20) (hD : 1 / 2 ^ 40 ≤ |n + Λ|)
    (hB : ∀ j, B j ≤ 2 ^ 40) (hl : Ys.length = 2 * n) (h : List.Forall₂ (RowNear B ε) rows (Y0 :: Ys))
    (α β : FP) {j : Fin n} {x : FP} (hx : IsMeanF (weightsF n α β (.fin Λ)).1 (rows.map (· j)) x) :
    ∃ q : ℚ, x = .fin q ∧ |(q : ℝ) - utMean n Λ (Y0 j) (Ys.map (· j))| ≤
      utCond n Λ * ((2 * n + 5) / 2 ^ 24 * B j + ε j) + 1 / 2 ^ 100 := by
  obtain ⟨cs, h1, h2, h3⟩ := RowNear.column h j
  rw [h1] at hx
  rw [List.map_cons] at h3
  cases h3 with
  | cons e0 he =>
    exact mean_near hn hn' hL hD (hB j) (h2 _ List.mem_cons_self)
      (fun c hc => h2 c (List.mem_cons_of_mem _ hc)) e0 he (by rw [List.length_map, hl]) α β hx

theorem rows_cov (hn : 1 ≤ n) (hn' : n ≤ 100) (ha : |a| ≤ 2 ^ 14) (hb : |b| ≤ 2 ^ 28) (hL : |Λ| ≤ 2 ^ 20)
    (hD : 1 / 2 ^ 8 ≤ |n + Λ|) (hB : ∀ j, B j ≤ 2 ^ 29) (hl : Ys.length = 2 * n)
    (h : List.Forall₂ (RowNear B ε) rows (Y0 :: Ys)) {j k : Fin n} {qj qk : ℚ} {Mj Mk τj τk Dj Dk : ℝ}
    (hqj : |(qj : ℝ) - utMean n Λ (Y0 j) (Ys.map (· j))| ≤ Mj)
    (hqk : |(qk : ℝ) - utMean n Λ (Y0 k) (Ys.map (· k))| ≤ Mk)
    (hτj : ε j + Mj ≤ τj) (hτk : ε k + Mk ≤ τk)
    (hDj : ∀ Y ∈ Y0 :: Ys, |Y j - utMean n Λ (Y0 j) (Ys.map (· j))| ≤ Dj)
    (hDk : ∀ Y ∈ Y0 :: Ys, |Y k - utMean n Λ (Y0 k) (Ys.map (· k))| ≤ Dk)
    (hj : Dj + τj ≤ 2 ^ 29) (hk : Dk + τk ≤ 2 ^ 29) {p : FP}
    (hp : IsCovF (weightsF n (.fin a) (.fin b) (.fin Λ)).2 (rows.map (· j)) (rows.map (· k))
      (.fin qj) (.fin qk) p) :
    ∃ r : ℚ, p = .fin r ∧
      |(r : ℝ) - utCov n a b Λ (Y0 j) (Ys.map (· j)) (Y0 k) (Ys.map (· k))| ≤
        utCovCond n a b Λ * ((2 * n + 11) / 2 ^ 24 * ((Dj + τj) * (Dk + τk)) +
          2 * ((Dj + τj) * (Dk + τk) - Dj * Dk)) + 1 / 2 ^ 69 := by
  -- columns
  have col : ∀ (j : Fin n) {qj : ℚ} {Mj τj Dj : ℝ},
      |(qj : ℝ) - utMean n Λ (Y0 j) (Ys.map (· j))| ≤ Mj → ε j + Mj ≤ τj →
      (∀ Y ∈ Y0 :: Ys, |Y j - utMean n Λ (Y0 j) (Ys.map (· j))| ≤ Dj) → Dj + τj ≤ 2 ^ 29 →
      (0 ≤ τj ∧ 0 ≤ Dj) ∧ |qj| ≤ 2 ^ 30 ∧ ∃ cs : List ℚ, rows.map (· j) = cs.map .fin ∧
        (∀ c ∈ cs, |c| ≤ 2 ^ 30) ∧ List.Forall₂ (fun (c : ℚ) y => |((c - qj : ℚ) : ℝ) -
          (y - utMean n Λ (Y0 j) (Ys.map (· j)))| ≤ τj ∧
          |y - utMean n Λ (Y0 j) (Ys.map (· j))| ≤ Dj) cs (Y0 j :: Ys.map (· j)) := by
    intro j qj Mj τj Dj h1 h2 h3 h4
    obtain ⟨cs, c1, c2, c3⟩ := RowNear.column h j
    generalize utMean n Λ (Y0 j) (Ys.map (· j)) = μ at *
    have near : List.Forall₂ (fun (c : ℚ) y => |((c - qj : ℚ) : ℝ) - (y - μ)| ≤ τj ∧ |y - μ| ≤ Dj) cs
        (Y0 j :: Ys.map (· j)) := by
      rw [List.forall₂_iff_get] at c3 ⊢
      refine ⟨c3.1, fun i hi hi' => ⟨?_, ?_⟩⟩
      · have e1 := c3.2 i hi hi'
        rw [Rat.cast_sub]
        generalize cs.get ⟨i, hi⟩ = c at *
        change |(c : ℝ) - List.get (Y0 j :: Ys.map (· j)) ⟨i, hi'⟩| ≤ ε j at e1
        generalize (List.get (Y0 j :: Ys.map (· j)) ⟨i, hi'⟩) = y at *
        rw [show (c : ℝ) - qj - (y - μ) = (c - y) - (qj - μ) by ring]
        exact (abs_sub _ _).trans (by linarith)
      · have hm : List.get (Y0 j :: Ys.map (· j)) ⟨i, hi'⟩ ∈ (Y0 :: Ys).map (· j) := by
          rw [List.map_cons]
          exact List.get_mem _ _
        obtain ⟨Y, hY, e⟩ := List.mem_map.1 hm
        rw [← e]
        exact h3 Y hY
    have hc0 : ∃ c0 ∈ cs, |((c0 - qj : ℚ) : ℝ) - (Y0 j - μ)| ≤ τj ∧ |Y0 j - μ| ≤ Dj := by
      cases near with
      | cons h _ => exact ⟨_, List.mem_cons_self, h⟩
    obtain ⟨c0, m0, e0, e0'⟩ := hc0
    refine ⟨⟨(abs_nonneg _).trans e0, (abs_nonneg _).trans e0'⟩, ?_, cs, c1,
      fun c hc => (c2 c hc).trans ((hB j).trans (by norm_num)), near⟩
    have f1 := abs_add_le (((c0 - qj : ℚ) : ℝ) - (Y0 j - μ)) (Y0 j - μ)
    rw [sub_add_cancel] at f1
    have f2 : |((c0 - qj : ℚ) : ℝ)| ≤ 2 ^ 29 := by linarith
    have f3 : |c0 - qj| ≤ 2 ^ 29 := by exact_mod_cast f2
    have f4 := abs_sub c0 (c0 - qj)
    rw [sub_sub_cancel] at f4
    have f5 := (c2 c0 m0).trans (hB j)
    norm_num at f3 f5 ⊢
    linarith
  obtain ⟨⟨tj, dj⟩, qj', cj, ej, bj, nj⟩ := col j hqj hτj hDj hj
  obtain ⟨⟨tk, dk⟩, qk', ck, ek, bk, nk⟩ := col k hqk hτk hDk hk
  -- weights
  have hn20 : n < 2 ^ 20 := lt_of_le_of_lt hn' (by norm_num)
  have hD60 : 1 / 2 ^ 60 ≤ |(n : ℚ) + Λ| := le_trans (by norm_num) hD
  have hL60 : |Λ| ≤ 2 ^ 60 := hL.trans (by norm_num)
  obtain ⟨w0, hw0, ew0⟩ := C91_covariance_weights hn20 (ha.trans (by norm_num)) (hb.trans (by norm_num)) hL60 hD60
  obtain ⟨_, w, -, hw, -, ew⟩ := weights_fin hn20 hL60 hD60
  have hWs : (weightsF n (.fin a) (.fin b) (.fin Λ)).2 = (w0 :: List.replicate (2 * n) w).map .fin := by
    rw [hw0]
    unfold weightsF
    rw [hw]
    simp
  have hDp : 0 < |(n : ℚ) + Λ| := lt_of_lt_of_le (by norm_num) hD
  have hDpR : 0 < |(n : ℝ) + Λ| := by exact_mod_cast hDp
  have hd8 : 1 / |(n : ℚ) + Λ| ≤ 2 ^ 8 := by
    rw [div_le_iff₀ hDp]
    norm_num at hD ⊢
    linarith
  have hl8 : |Λ| / |(n : ℚ) + Λ| ≤ 2 ^ 28 := by
    rw [div_eq_mul_one_div]
    exact (mul_le_mul hL hd8 (by positivity) (by norm_num)).trans (by norm_num)
  have hl0 : 0 ≤ |Λ| / |(n : ℚ) + Λ| := by positivity
  have ha2 : a ^ 2 ≤ 2 ^ 28 := by
    rw [← sq_abs]
    exact (pow_le_pow_left₀ (abs_nonneg _) ha 2).trans (by norm_num)
  have ha0 : 0 ≤ a ^ 2 := sq_nonneg a
  have hb0 := abs_nonneg b
  have W0 : |Λ / (n + Λ) + (1 - a ^ 2 + b)| ≤ |Λ| / |n + Λ| + 1 + a ^ 2 + |b| := by
    refine (abs_add_le _ _).trans ?_
    rw [abs_div]
    have k1 := abs_add_le (1 - a ^ 2) b
    have k2 := abs_sub 1 (a ^ 2)
    rw [abs_one, abs_of_nonneg ha0] at k2
    linarith
  have bw0 : |w0| ≤ 2 ^ 30 := by
    have := abs_add_le (w0 - (Λ / (n + Λ) + (1 - a ^ 2 + b))) (Λ / (n + Λ) + (1 - a ^ 2 + b))
    rw [sub_add_cancel] at this
    generalize Λ / (n + Λ) + (1 - a ^ 2 + b) = W at *
    generalize |Λ| / |(n : ℚ) + Λ| = u at *
    norm_num at hl8 ha2 hb ew0 ⊢
    linarith
  have Wi : |1 / (2 * ((n : ℚ) + Λ))| = 1 / (2 * |n + Λ|) := by
    rw [abs_div, abs_mul, abs_one, abs_two]
  have Wi' : (1 : ℚ) / (2 * |n + Λ|) = 1 / 2 * (1 / |n + Λ|) := by
    rw [one_div_mul_eq_div, div_div, mul_comm]
  have bw : |w| ≤ 2 ^ 30 := by
    have := abs_add_le (w - 1 / (2 * (n + Λ))) (1 / (2 * (n + Λ)))
    rw [sub_add_cancel, Wi, Wi'] at this
    generalize w - 1 / (2 * (n + Λ)) = W at *
    generalize 1 / |(n : ℚ) + Λ| = u at *
    norm_num at hd8 ew ⊢
    linarith
  rw [hWs, ej, ek] at hp
  have lenj : cj.length = 2 * n + 1 := by rw [nj.length_eq]; simp [hl]
  have lenk : ck.length = 2 * n + 1 := by rw [nk.length_eq]; simp [hl]
  have lenw : (w0 :: List.replicate (2 * n) w).length = 2 * n + 1 := by simp
  obtain ⟨r, hr, er⟩ := C92_covariance (lenw.trans lenj.symm) (lenw.trans lenk.symm)
    (by rw [lenw]; omega) (by
      intro u hu
      rcases List.mem_cons.1 hu with rfl | hu
      · exact bw0
      · rw [List.eq_of_mem_replicate hu]; exact bw) bj bk qj' qk' hp
  refine ⟨r, hr, ?_⟩
  have hWF : List.Forall₂ (fun (w : ℚ) (W : ℝ × ℝ) => |(w : ℝ) - W.1| ≤ 5 / 2 ^ 24 * W.2 ∧ |W.1| ≤ W.2)
      (w0 :: List.replicate (2 * n) w)
      (((Λ : ℝ) / (n + Λ) + (1 - (a : ℝ) ^ 2 + b), |(Λ : ℝ)| / |(n : ℝ) + Λ| + 1 + (a : ℝ) ^ 2 + |(b : ℝ)|) ::
        List.replicate (2 * n) (1 / (2 * ((n : ℝ) + Λ)), 1 / (2 * |(n : ℝ) + Λ|))) := by
    refine .cons ⟨?_, ?_⟩ ?_
    · have := (Rat.cast_le (K := ℝ)).2 ew0
      push_cast at this
      exact this
    · have := (Rat.cast_le (K := ℝ)).2 W0
      push_cast at this
      exact this
    · rw [List.forall₂_iff_get]
      refine ⟨by simp, fun i hi hi' => ?_⟩
      rw [List.get_eq_getElem, List.get_eq_getElem, List.getElem_replicate, List.getElem_replicate]
      constructor
      · have e2 : |w - 1 / (2 * (n + Λ))| ≤ 5 / 2 ^ 24 * (1 / (2 * |n + Λ|)) := by
          rw [Wi']
          refine ew.trans ?_
          have : 0 ≤ 1 / |(n : ℚ) + Λ| := by positivity
          linarith
        have := (Rat.cast_le (K := ℝ)).2 e2
        push_cast at this
        exact this
      · have := (Rat.cast_le (K := ℝ)).2 Wi.le
        push_cast at this
        exact this
  obtain ⟨t1, t2⟩ := cov_terms (by norm_num) tj tk dj dk hWF nj nk
  -- sum of the weights
  have hΩ : (List.map Prod.snd (((Λ : ℝ) / (n + Λ) + (1 - (a : ℝ) ^ 2 + b), |(Λ : ℝ)| / |(n : ℝ) + Λ| + 1 + (a : ℝ) ^ 2 + |(b : ℝ)|) ::
        List.replicate (2 * n) (1 / (2 * ((n : ℝ) + Λ)), 1 / (2 * |(n : ℝ) + Λ|)))).sum =
      utCovCond n a b Λ := by
    rw [List.map_cons, List.sum_cons, List.map_replicate, List.sum_replicate, nsmul_eq_mul]
    unfold utCovCond
    push_cast
    field_simp
  rw [hΩ] at t1 t2
  have hΩ0 : 0 ≤ utCovCond n a b Λ := by unfold utCovCond; positivity
  -- the exact sum
  have hex : (List.zipWith (fun (W : ℝ × ℝ) u => W.1 * u)
      (((Λ : ℝ) / (n + Λ) + (1 - (a : ℝ) ^ 2 + b), |(Λ : ℝ)| / |(n : ℝ) + Λ| + 1 + (a : ℝ) ^ 2 + |(b : ℝ)|) ::
        List.replicate (2 * n) (1 / (2 * ((n : ℝ) + Λ)), 1 / (2 * |(n : ℝ) + Λ|)))
      (List.zipWith (fun y z => (y - utMean n Λ (Y0 j) (Ys.map (· j))) * (z - utMean n Λ (Y0 k) (Ys.map (· k))))
        (Y0 j :: Ys.map (· j)) (Y0 k :: Ys.map (· k)))).sum =
      utCov n a b Λ (Y0 j) (Ys.map (· j)) (Y0 k) (Ys.map (· k)) := by
    rw [List.zipWith_cons_cons, List.zipWith_cons_cons, List.sum_cons, zipWith_replicate_sum _ _ _ (by simp [hl])]
    unfold utCov
    congr 1
    rw [one_div_mul_eq_div]
  rw [hex] at t1
  have er' := (Rat.cast_le (K := ℝ)).2 er
  rw [Rat.cast_abs, Rat.cast_sub, Rat.cast_add, Rat.cast_mul] at er'
  generalize utCov n a b Λ (Y0 j) (Ys.map (· j)) (Y0 k) (Ys.map (· k)) = C at *
  generalize List.zipWith (fun c d => (c - qj) * d) cj (List.zipWith (fun w c => w * (c - qk))
    (w0 :: List.replicate (2 * n) w) ck) = terms at *
  rw [lenw] at er'
  have fin := abs_sub_le (r : ℝ) ((terms.sum : ℚ) : ℝ) C
  generalize ((terms.map (|·|)).sum : ℚ) = A at *
  generalize utCovCond n a b Λ = Ω at *
  have hSD : Dj * Dk ≤ (Dj + τj) * (Dk + τk) := mul_le_mul (by linarith) (by linarith) dk (by linarith)
  have hDD : 0 ≤ Dj * Dk := mul_nonneg dj dk
  generalize (Dj + τj) * (Dk + τk) = S at *
  generalize Dj * Dk = E at *
  have z1 : 0 ≤ Ω * (S - E) := mul_nonneg hΩ0 (by linarith)
  have z2 : 0 ≤ Ω * E := mul_nonneg hΩ0 hDD
  have hn1 : (n : ℝ) ≤ 100 := by exact_mod_cast hn'
  have hn0 : (0 : ℝ) ≤ n := by positivity
  generalize terms.sum = ts at *
  push_cast at er'
  have y1 : (1001 / 1000 * ((2 * (n : ℝ) + 1 + 3) / 2 ^ 24)) * A ≤
      (1001 / 1000 * ((2 * (n : ℝ) + 1 + 3) / 2 ^ 24)) * (Ω * ((1 + 5 / 2 ^ 24) * S)) :=
    mul_le_mul_of_nonneg_left t2 (by positivity)
  have z3 : (n : ℝ) * (Ω * S) ≤ 100 * (Ω * S) := mul_le_mul_of_nonneg_right hn1 (mul_nonneg hΩ0 (by linarith))
  have r1 : (1001 / 1000 * ((2 * (n : ℝ) + 1 + 3) / 2 ^ 24)) * (Ω * ((1 + 5 / 2 ^ 24) * S)) =
      1001 / 1000 / 2 ^ 24 * (1 + 5 / 2 ^ 24) * (2 * (n * (Ω * S)) + 4 * (Ω * S)) := by ring
  have r2 : Ω * ((1 + 5 / 2 ^ 24) * (S - E) + 5 / 2 ^ 24 * E) =
      (1 + 5 / 2 ^ 24) * (Ω * (S - E)) + 5 / 2 ^ 24 * (Ω * E) := by ring
  have r3 : Ω * ((2 * n + 11) / 2 ^ 24 * S + 2 * (S - E)) =
      (2 * (n * (Ω * S)) + 11 * (Ω * S)) / 2 ^ 24 + 2 * (Ω * (S - E)) := by ring
  have r4 : Ω * S = Ω * (S - E) + Ω * E := by ring
  rw [r1] at y1
  rw [r2] at t1
  rw [r3]
  have fin2 := fin.trans (add_le_add er' t1)
  generalize |(r : ℝ) - C| = X at *
  generalize (n : ℝ) * (Ω * S) = nS at *
  generalize Ω * S = g1 at *
  generalize Ω * (S - E) = g2 at *
  generalize Ω * E = g3 at *
  generalize 1001 / 1000 * ((2 * (n : ℝ) + 1 + 3) / 2 ^ 24) * (A : ℝ) = y at *
  clear * - fin2 y1 r4 z1 z2 z3 hn1
  norm_num at fin2 y1 ⊢
  linarith

end

end Mot
