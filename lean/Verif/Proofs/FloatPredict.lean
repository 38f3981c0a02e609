import Verif.Model.FloatPredict
import Verif.Props.FloatSums
import Verif.Proofs.FloatRound
import Verif.Proofs.FloatMotion
/-!
# Lemmas on the computed prediction
-/

namespace Mot

open Spec Mot.Props

section
variable {S : Type} {n : ℕ} [MotionModelF S n]

/-- the `j`-th offset of the sigma points -/
def offsetF (S : Type) {n : ℕ} [MotionModelF S n] (L : Matrix (Fin n) (Fin n) FP) (lam : FP) (j : Fin n) : S :=
  MotionModelF.ofVec fun i => FP.mul binary32 (spreadF n lam) (L i j)

theorem rows_map (s : S) (L : Matrix (Fin n) (Fin n) FP) (dt lam : FP) {k : Fin n} (hk : k.1 ≠ 3) :
    (predictedRowsF s L dt lam).map (· k) = MotionModelF.toVec (MotionModelF.next s dt) k ::
      (List.finRange n).flatMap fun j =>
        [MotionModelF.toVec (MotionModelF.next (MotionModelF.add s (offsetF S L lam j)) dt) k,
         MotionModelF.toVec (MotionModelF.next (MotionModelF.sub s (offsetF S L lam j)) dt) k] := by
  simp [predictedRowsF, sigmaPointsF, List.map_flatMap, rotateYawF, hk, offsetF]

theorem length_flatMap_pair {α β : Type*} (f g : α → β) (l : List α) :
    (l.flatMap fun j => [f j, g j]).length = 2 * l.length := by
  induction l with
  | nil => rfl
  | cons a l ih =>
    rw [List.flatMap_cons, List.length_append, ih]
    simp
    omega

theorem rows_length (s : S) (L : Matrix (Fin n) (Fin n) FP) (dt lam : FP) :
    (predictedRowsF s L dt lam).length = 2 * n + 1 := by
  have := length_flatMap_pair (fun j => MotionModelF.add s (offsetF S L lam j))
    (fun j => MotionModelF.sub s (offsetF S L lam j)) (List.finRange n)
  rw [List.length_finRange] at this
  simp only [predictedRowsF, List.length_map, List.length_cons]
  rw [← this]
  rfl

end

theorem isFloat_of_ofRat {w q : ℚ} (h : FP.ofRat binary32 w = .fin q) : IsFloat q := by
  unfold FP.ofRat at h
  split_ifs at h with hlt
  simp only [FP.fin.injEq] at h
  subst h
  rw [b32_emax] at hlt
  obtain ⟨m, e, hc, hv, -⟩ := binary32.round_nearestEven (by decide) w
  exact ⟨m, e, hc, hv, hlt⟩

/-- conversion to `double` is exact -/
theorem Spec.IsFloat.conv64 {q : ℚ} (h : IsFloat q) : FP.conv binary64 (.fin q) = .fin q := by
  obtain ⟨m, e, ⟨hm, he, -⟩, rfl, hb⟩ := h
  have hr : binary64.round (m * 2 ^ e) = m * 2 ^ e :=
    binary64.round_exact (hm.trans (by norm_num [binary64])) ((by norm_num [binary64] : (binary64.emin ≤ -149)).trans he)
  show FP.ofRat binary64 _ = _
  unfold FP.ofRat
  rw [hr, if_pos]
  refine hb.trans ?_
  rw [b64_emax, ← zpow_natCast]
  exact zpow_lt_zpow_right₀ (by norm_num) (by norm_num)

/-- a rounded sum of `float`s is a `float` -/
theorem SumsTo.isFloat {l : List FP} {x : FP} (h : SumsTo binary32 l x)
    (hl : ∀ a ∈ l, ∀ q, a = .fin q → IsFloat q) (q : ℚ) (hq : x = .fin q) : IsFloat q := by
  induction h generalizing q with
  | one a => exact hl a List.mem_cons_self q hq
  | @add l r a b h1 h2 ih1 ih2 =>
    cases a with
    | nan => cases b <;> simp [FP.add] at hq
    | inf s => cases b <;> simp [FP.add] at hq; split_ifs at hq
    | fin a => cases b with
      | nan => simp [FP.add] at hq
      | inf s => simp [FP.add] at hq
      | fin b => exact isFloat_of_ofRat hq
  | perm hp h ih => exact ih (fun a ha => hl a (hp.mem_iff.1 ha)) q hq

theorem mul_isFloat {a b : FP} {q : ℚ} (h : FP.mul binary32 a b = .fin q) : IsFloat q := by
  cases a with
  | nan => cases b <;> simp [FP.mul] at h
  | inf s => cases b <;> simp [FP.mul] at h; split_ifs at h
  | fin a => cases b with
    | nan => simp [FP.mul] at h
    | inf s => simp [FP.mul] at h; split_ifs at h
    | fin b => exact isFloat_of_ofRat h

theorem IsMeanF.isFloat {w c : List FP} {x : FP} (h : IsMeanF w c x) {q : ℚ} (hq : x = .fin q) : IsFloat q :=
  SumsTo.isFloat h (fun a ha q hq => by
    obtain ⟨p, -, b, -, rfl⟩ := mem_zipWith ha
    exact mul_isFloat hq) q hq

/-- sums of nearly symmetric pairs -/
theorem pairs_sum {α : Type*} {P Q e : α → ℚ} {u E : ℚ} (hP : ∀ j, |P j - (u + e j)| ≤ E)
    (hQ : ∀ j, |Q j - (u - e j)| ≤ E) (l : List α) :
    |(l.flatMap fun j => [P j, Q j]).sum - 2 * (l.length * u)| ≤ 2 * (l.length * E) := by
  induction l with
  | nil => simp
  | cons a l ih =>
    rw [List.flatMap_cons, List.sum_append, List.length_cons]
    push_cast
    simp only [List.sum_cons, List.sum_nil, add_zero]
    have h1 := abs_add_le (P a - (u + e a)) (Q a - (u - e a))
    have h2 := abs_add_le (P a - (u + e a) + (Q a - (u - e a)))
      ((l.flatMap fun j => [P j, Q j]).sum - 2 * (l.length * u))
    have := hP a
    have := hQ a
    rw [show P a + Q a + (l.flatMap fun j => [P j, Q j]).sum - 2 * ((l.length + 1) * u) =
      P a - (u + e a) + (Q a - (u - e a)) + ((l.flatMap fun j => [P j, Q j]).sum - 2 * (l.length * u)) by ring]
    linarith

/-- the mean of nearly symmetric points -/
theorem symm_mean {n : ℕ} (hn : 1 ≤ n) (hn' : n ≤ 100) {Λ : ℚ} (hL : |Λ| ≤ 2 ^ 20)
    (hD : 1 / 2 ^ 40 ≤ |n + Λ|) {u D E r : ℚ} {P Q e : Fin n → ℚ} (hr : |r - u| ≤ E)
    (hP : ∀ j, |P j - (u + e j)| ≤ E) (hQ : ∀ j, |Q j - (u - e j)| ≤ E) (he : ∀ j, |e j| ≤ D) (hD0 : 0 ≤ D)
    (hB : |u| + D + E ≤ 2 ^ 40) (α β : FP) {x : FP}
    (h : IsMeanF (weightsF n α β (.fin Λ)).1
      (.fin r :: (List.finRange n).flatMap fun j => [.fin (P j), .fin (Q j)]) x) :
    Within x u ((2 * n + 5) / 2 ^ 24 * ((|Λ| + n) / |n + Λ|) * (|u| + D + E) +
      (|Λ| + n) / |n + Λ| * E + 1 / 2 ^ 100) := by
  set cs : List ℚ := (List.finRange n).flatMap fun j => [P j, Q j] with hcs
  have hmap : ((List.finRange n).flatMap fun j => [FP.fin (P j), FP.fin (Q j)]) = cs.map .fin := by
    rw [hcs, List.map_flatMap]; rfl
  rw [hmap] at h
  have hlen : cs.length = 2 * n := by rw [hcs, length_flatMap_pair, List.length_finRange]
  have hb : ∀ c, (∃ t, |t| ≤ D ∧ |c - (u + t)| ≤ E) → |c| ≤ |u| + D + E := by
    rintro c ⟨t, ht, hc⟩
    have h1 := abs_add_le (c - (u + t)) (u + t)
    have h2 := abs_add_le u t
    rw [sub_add_cancel] at h1
    linarith
  have hmem : ∀ c ∈ cs, |c| ≤ |u| + D + E := by
    intro c hc
    obtain ⟨j, -, hj⟩ := List.mem_flatMap.1 hc
    simp only [List.mem_cons, List.not_mem_nil, or_false] at hj
    rcases hj with rfl | rfl
    · exact hb _ ⟨e j, he j, hP j⟩
    · exact hb _ ⟨-e j, by rw [abs_neg]; exact he j, by rw [← sub_eq_add_neg]; exact hQ j⟩
  obtain ⟨q, hq, hqe⟩ := C92_prediction hn hn' hL hD hB hlen
    (hb r ⟨0, by rwa [abs_zero], by rwa [add_zero]⟩) hmem α β h
  refine ⟨q, hq, ?_⟩
  have hs := pairs_sum hP hQ (List.finRange n)
  rw [← hcs, List.length_finRange] at hs
  have hDp : 0 < |(n : ℚ) + Λ| := lt_of_lt_of_le (by norm_num) hD
  have hD1 : (n : ℚ) + Λ ≠ 0 := abs_pos.1 hDp
  have hx : |(Λ * r + cs.sum / 2) / (n + Λ) - u| ≤ (|Λ| + n) / |n + Λ| * E := by
    rw [show (Λ * r + cs.sum / 2) / (n + Λ) - u =
      (Λ * (r - u) + (cs.sum - 2 * (n * u)) / 2) / (n + Λ) by field_simp; ring, abs_div,
      div_mul_eq_mul_div]
    refine div_le_div_of_nonneg_right ?_ hDp.le
    refine (abs_add_le _ _).trans ?_
    rw [abs_mul, abs_div, abs_two]
    have := mul_le_mul_of_nonneg_left hr (abs_nonneg Λ)
    linarith
  have := abs_sub_le q ((Λ * r + cs.sum / 2) / (n + Λ)) u
  linarith

/-- rounding a `double` to a `float` -/
theorem conv32_near {a y δ M : ℚ} (h : |a - y| ≤ δ) (hy : |y| ≤ M) (hδ : δ ≤ M / 2 ^ 45 + 1 / 2 ^ 170)
    (hM : M ≤ 2 ^ 39) :
    ∃ q, FP.conv binary32 (.fin a) = .fin q ∧
      |q - y| ≤ (1 + 1 / 2 ^ 15) / 2 ^ 24 * M + 1 / 2 ^ 149 := by
  have h0 := (abs_nonneg y).trans hy
  have h1 := abs_add_le (a - y) y
  rw [sub_add_cancel] at h1
  refine ⟨_, b32_ofRat ?_, ?_⟩
  · norm_num at hδ hM ⊢
    linarith
  · have h2 := b32_std a
    have h3 := abs_sub_le (binary32.round a) a y
    norm_num at hδ hM h2 ⊢
    linarith

/-- the final bound -/
theorem tail_bound {n : ℕ} (hn' : n ≤ 100) {Λ : ℚ} (hL : |Λ| ≤ 2 ^ 20)
    (hD : 1 / 2 ^ 40 ≤ |n + Λ|) {M : ℚ} (hM0 : 0 ≤ M) {E : ℚ}
    (hE : E = (1 + 1 / 2 ^ 15) / 2 ^ 24 * M + 1 / 2 ^ 149) :
    (2 * n + 5) / 2 ^ 24 * ((|Λ| + n) / |n + Λ|) * (M + E) +
      (|Λ| + n) / |n + Λ| * E + 1 / 2 ^ 100 ≤
    (2 * n + 7) / 2 ^ 24 * ((|Λ| + n) / |n + Λ|) * M + 1 / 2 ^ 80 := by
  have hn1 : (n : ℚ) ≤ 100 := by exact_mod_cast hn'
  have hn0 : (0 : ℚ) ≤ n := by positivity
  have hDp : 0 < |(n : ℚ) + Λ| := lt_of_lt_of_le (by norm_num) hD
  have hK0 : 0 ≤ (|Λ| + n) / |n + Λ| := by positivity
  have hK1 : (|Λ| + n) / |n + Λ| ≤ 2 ^ 61 := by
    rw [div_le_iff₀ hDp]
    have := mul_le_mul_of_nonneg_left hD (show (0 : ℚ) ≤ 2 ^ 61 by norm_num)
    norm_num at this hL ⊢
    linarith
  generalize (|Λ| + n) / |n + Λ| = K at *
  have h1 : 0 ≤ K * M := mul_nonneg hK0 hM0
  have h2 : (n : ℚ) * (K * M) ≤ 100 * (K * M) := mul_le_mul_of_nonneg_right hn1 h1
  have h3 : (n : ℚ) * K ≤ 100 * K := mul_le_mul_of_nonneg_right hn1 hK0
  have h4 : 0 ≤ n * (K * M) := mul_nonneg hn0 h1
  subst hE
  rw [show (2 * (n : ℚ) + 5) / 2 ^ 24 * K * (M + ((1 + 1 / 2 ^ 15) / 2 ^ 24 * M + 1 / 2 ^ 149)) +
      K * ((1 + 1 / 2 ^ 15) / 2 ^ 24 * M + 1 / 2 ^ 149) + 1 / 2 ^ 100 =
    2 / 2 ^ 24 * (1 + (1 + 1 / 2 ^ 15) / 2 ^ 24) * (n * (K * M)) +
    (5 / 2 ^ 24 * (1 + (1 + 1 / 2 ^ 15) / 2 ^ 24) + (1 + 1 / 2 ^ 15) / 2 ^ 24) * (K * M) +
    2 / 2 ^ 24 / 2 ^ 149 * (n * K) + (5 / 2 ^ 24 + 1) / 2 ^ 149 * K + 1 / 2 ^ 100 by ring,
    show (2 * (n : ℚ) + 7) / 2 ^ 24 * K * M = 2 / 2 ^ 24 * (n * (K * M)) + 7 / 2 ^ 24 * (K * M) by ring]
  generalize (n : ℚ) * (K * M) = a at *
  generalize K * M = b at *
  generalize (n : ℚ) * K = c at *
  norm_num at hK1 ⊢
  linarith

end Mot
