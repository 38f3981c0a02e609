import Verif.Model.FloatEq
import Verif.Spec.FloatEq
import Verif.Proofs.FloatTime
import Verif.Proofs.FloatPipeline
import Verif.Model.Units
/-!
# Lemmas on the comparison of `double`s with a tolerance
-/

namespace Mot

open Spec

/-- there is only one nearest number with ties to even -/
theorem nearestEven_unique {x q r : ℚ} (hq : NearestEven 53 (-1074) x q)
    (hr : NearestEven 53 (-1074) x r) : q = r := by
  have key : ∀ q r : ℚ, NearestEven 53 (-1074) x q → NearestEven 53 (-1074) x r → ¬ q < r := by
    intro q r ⟨m, e, hc, hv, hn⟩ ⟨n, f, hd, hw, hk⟩ hlt
    have h1 := hn n f hd
    have h2 := hk m e hc
    rw [← hw] at h1
    rw [← hv] at h2
    have heq : |q - x| = |r - x| := le_antisymm h1.1 h2.1
    have em := h1.2 heq hlt.ne'
    have en := h2.2 heq.symm hlt.ne
    -- numbers in between are nearer
    have hx : 2 * x = q + r := by
      rcases abs_eq_abs.1 heq with h | h
      · exact absurd (by linarith) hlt.ne
      · linarith
    have hbet : ∀ (a k : ℤ), |a| < 2 ^ 53 → -1074 ≤ k → q < a * (2 : ℚ) ^ k → a * (2 : ℚ) ^ k < r → False := by
      intro a k ha hk' hl hu
      have hr := binary64.round_exact ha hk'
      obtain ⟨a', k', hc', hv', -⟩ := binary64.round_nearestEven (by decide) (a * (2 : ℚ) ^ k)
      rw [hr] at hv'
      have := (hn a' k' hc').1
      rw [← hv', abs_of_nonpos (a := q - x) (by linarith)] at this
      rcases abs_cases (a * (2 : ℚ) ^ k - x) with ⟨h, _⟩ | ⟨h, _⟩ <;> rw [h] at this <;> linarith
    obtain ⟨hm, he, -⟩ := hc
    obtain ⟨hn', hf, -⟩ := hd
    have hm2 : |m| ≤ 2 ^ 53 - 2 := by
      have : Even |m| := even_abs.2 em
      obtain ⟨c, hc⟩ := this
      omega
    have hn2 : |n| ≤ 2 ^ 53 - 2 := by
      have : Even |n| := even_abs.2 en
      obtain ⟨c, hc⟩ := this
      omega
    rcases le_total e f with hef | hef
    · obtain ⟨k, hk⟩ := Fmt.zpow_of_nonneg (k := f - e) (by omega)
      have hr' : r = ((n * k : ℤ) : ℚ) * (2 : ℚ) ^ e := by
        rw [hw]; push_cast
        rw [← hk, mul_assoc, ← zpow_add₀ (by norm_num)]
        congr 2; ring
      have hp := Fmt.two_zpow_pos e
      have hmn : m < n * k := by
        rw [hv, hr', mul_lt_mul_iff_left₀ hp] at hlt
        exact_mod_cast hlt
      have ev : Even (n * k - m) := (en.mul_right k).sub em
      have h2' : m + 1 < n * k := by obtain ⟨c, hc⟩ := ev; omega
      refine hbet (m + 1) e ?_ he ?_ ?_
      · rw [abs_le] at hm2
        rw [abs_lt]
        constructor <;> omega
      · rw [hv, mul_lt_mul_iff_left₀ hp]
        exact_mod_cast lt_add_one m
      · rw [hr', mul_lt_mul_iff_left₀ hp]
        exact_mod_cast h2'
    · obtain ⟨k, hk⟩ := Fmt.zpow_of_nonneg (k := e - f) (by omega)
      have hq' : q = ((m * k : ℤ) : ℚ) * (2 : ℚ) ^ f := by
        rw [hv]; push_cast
        rw [← hk, mul_assoc, ← zpow_add₀ (by norm_num)]
        congr 2; ring
      have hp := Fmt.two_zpow_pos f
      have hmn : m * k < n := by
        rw [hw, hq', mul_lt_mul_iff_left₀ hp] at hlt
        exact_mod_cast hlt
      have ev : Even (n - m * k) := en.sub (em.mul_right k)
      have h2' : m * k < n - 1 := by obtain ⟨c, hc⟩ := ev; omega
      refine hbet (n - 1) f ?_ hf ?_ ?_
      · rw [abs_le] at hn2
        rw [abs_lt]
        constructor <;> omega
      · rw [hq', mul_lt_mul_iff_left₀ hp]
        exact_mod_cast h2'
      · rw [hw, mul_lt_mul_iff_left₀ hp]
        exact_mod_cast sub_one_lt n
  exact le_antisymm (not_lt.1 (key _ _ hr hq)) (not_lt.1 (key _ _ hq hr))

theorem nearestEven_iff {x r : ℚ} : NearestEven 53 (-1074) x r ↔ r = binary64.round x :=
  ⟨fun h => nearestEven_unique h (binary64.round_nearestEven (by decide) x),
    fun h => h ▸ binary64.round_nearestEven (by decide) x⟩

theorem almostEqual_iff {a b : ℚ} : AlmostEqual a b ↔ |a - b| < (2 : ℚ) ^ (-1022 : ℤ) ∨
    2 ^ 52 * |a - b| < binary64.round |a + b| ∨ (2 : ℚ) ^ (1024 : ℤ) ≤ binary64.round |a + b| := by
  unfold AlmostEqual
  simp only [nearestEven_iff, exists_eq_left]

/-- sums of `double`s do not underflow -/
theorem double_add {t s : ℚ} (ht : IsDouble t) (hs : IsDouble s) :
    |binary64.round (|t + s|) - (|t + s|)| ≤ |t + s| / 2 ^ 53 := by
  obtain ⟨i, hi⟩ := ht.grid
  obtain ⟨j, hj⟩ := hs.grid
  have := round_grid (x := |t + s|) (k := |i + j|) (by
    rw [hi, hj, ← add_mul, abs_mul, abs_of_pos (Fmt.two_zpow_pos (-1074))]
    push_cast
    rfl)
  rwa [abs_abs] at this

theorem Spec.IsDouble.neg {x : ℚ} (h : IsDouble x) : IsDouble (-x) := by
  obtain ⟨m, e, ⟨hm, he, hc⟩, hx, hb⟩ := h
  exact ⟨-m, e, ⟨by rwa [abs_neg], he, by rwa [abs_neg]⟩, by rw [hx]; push_cast; ring, by rwa [abs_neg]⟩

/-- small differences are exact -/
theorem double_sub_small {a b : ℚ} (ha : IsDouble a) (hb : IsDouble b)
    (h : |a - b| < (2 : ℚ) ^ (-1022 : ℤ)) : binary64.round (a - b) = a - b := by
  obtain ⟨i, hi⟩ := ha.grid
  obtain ⟨j, hj⟩ := hb.grid
  have e : a - b = ((i - j : ℤ) : ℚ) * (2 : ℚ) ^ (-1074 : ℤ) := by rw [hi, hj]; push_cast; ring
  rw [e]
  refine binary64.round_exact ?_ le_rfl
  rw [e, abs_mul, abs_of_pos (Fmt.two_zpow_pos (-1074)), show (2 : ℚ) ^ (-1022 : ℤ) =
    2 ^ 52 * (2 : ℚ) ^ (-1074 : ℤ) by rw [← zpow_natCast, ← zpow_add₀ (by norm_num)]; congr 1,
    mul_lt_mul_iff_left₀ (Fmt.two_zpow_pos _)] at h
  have : |i - j| < 2 ^ 52 := by exact_mod_cast h
  exact this.trans (by decide)

/-- differences of numbers that are near are exact -/
theorem double_sub_near {a b : ℚ} (ha : IsDouble a) (hb : IsDouble b) (h : 4 * |a - b| ≤ |a + b|) :
    binary64.round (a - b) = a - b := by
  rcases le_total 0 (a + b) with h0 | h0
  · rw [abs_of_nonneg h0] at h
    have h1 := le_abs_self (a - b)
    have h2 := neg_abs_le (a - b)
    exact sterbenz ha hb (by linarith) (by linarith) (by linarith)
  · rw [abs_of_nonpos h0] at h
    have h1 := le_abs_self (a - b)
    have h2 := neg_abs_le (a - b)
    have := sterbenz ha.neg hb.neg (by linarith) (by linarith) (by linarith)
    rw [show -a - -b = -(a - b) by ring, Fmt.round_neg] at this
    linarith

theorem abs_ofRat (x : ℚ) : FP.abs (FP.ofRat binary64 x) =
    if binary64.round |x| < (2 : ℚ) ^ (1024 : ℤ) then .fin (binary64.round |x|) else .inf false := by
  unfold FP.ofRat
  rw [b64_emax, Fmt.abs_round]
  split
  · show FP.fin _ = _
    rw [Fmt.abs_round]
  · rfl

theorem b64_overflow (x : ℚ) : binary64.round |x| < (2 : ℚ) ^ (1024 : ℤ) ↔
    |x| < (2 ^ 54 - 1) * (2 : ℚ) ^ (970 : ℤ) := by
  have h := binary64.overflow_iff (by decide) (by decide) (by decide +kernel) (by decide) x
  rw [Fmt.abs_round] at h
  exact h

theorem Spec.IsDouble.lt {x : ℚ} (h : IsDouble x) : |x| < (2 : ℚ) ^ (1024 : ℤ) := by
  obtain ⟨_, _, -, -, h⟩ := h
  exact h

theorem Spec.IsDouble.lt' {x : ℚ} (h : IsDouble x) : |x| < (2 ^ 54 - 1) * (2 : ℚ) ^ (970 : ℤ) := by
  rw [← b64_overflow, ← Fmt.abs_round, h.round]
  exact h.lt

/-- sum and difference do not both overflow -/
theorem not_both {a b : ℚ} (ha : IsDouble a) (hb : IsDouble b)
    (h : (2 ^ 54 - 1) * (2 : ℚ) ^ (970 : ℤ) ≤ |a - b|) :
    |a + b| < (2 ^ 54 - 1) * (2 : ℚ) ^ (970 : ℤ) := by
  have h1 := ha.lt'
  have h2 := hb.lt'
  generalize (2 ^ 54 - 1) * (2 : ℚ) ^ (970 : ℤ) = B at *
  rw [abs_lt] at *
  rcases le_abs.1 h with h | h <;> constructor <;> linarith

/-- dividing by 2⁵² is exact above the smallest normal number -/
theorem round_scaled {x : ℚ} (h : IsDouble x) (hx : (2 : ℚ) ^ (-1022 : ℤ) ≤ 1 / 2 ^ 52 * |x|) :
    binary64.round (1 / 2 ^ 52 * |x|) = 1 / 2 ^ 52 * |x| := by
  obtain ⟨m, e, ⟨hm, he, hc⟩, rfl, -⟩ := h
  have hp := Fmt.two_zpow_pos e
  rw [abs_mul, abs_of_pos hp] at hx ⊢
  have he' : -1022 ≤ e := by
    by_contra hcon
    have h1 : (2 : ℚ) ^ e ≤ (2 : ℚ) ^ (-1023 : ℤ) := zpow_le_zpow_right₀ (by norm_num) (by omega)
    have h2 : |(m : ℚ)| < 2 ^ 53 := by exact_mod_cast hm
    have h3 : (2 : ℚ) ^ (-1022 : ℤ) = 2 * (2 : ℚ) ^ (-1023 : ℤ) := by
      rw [← zpow_one_add₀ (by norm_num)]; congr 1
    have h4 : |(m : ℚ)| * (2 : ℚ) ^ e < 2 ^ 53 * (2 : ℚ) ^ (-1023 : ℤ) :=
      (mul_lt_mul_of_pos_right h2 hp).trans_le (mul_le_mul_of_nonneg_left h1 (by norm_num))
    rw [h3] at hx
    generalize (2 : ℚ) ^ (-1023 : ℤ) = A at *
    norm_num at *
    linarith
  have e1 : 1 / 2 ^ 52 * (|(m : ℚ)| * (2 : ℚ) ^ e) = ((|m| : ℤ) : ℚ) * (2 : ℚ) ^ (e - 52) := by
    rw [zpow_sub₀ (by norm_num)]
    push_cast
    norm_num
    ring
  rw [e1]
  refine binary64.round_exact ?_ ?_
  · rw [abs_abs]; exact hm
  · show (-1074 : ℤ) ≤ e - 52
    omega

/-- the comparison of the units library, as computed -/
theorem unitsEqF_iff {a b : ℚ} (ha : IsDouble a) (hb : IsDouble b) :
    unitsEqF (.fin a) (.fin b) = true ↔ AlmostEqual a b := by
  rw [almostEqual_iff]
  unfold unitsEqF
  show (FP.gt (FP.mul binary64 (.fin (1 / 2 ^ 52)) (FP.abs (FP.ofRat binary64 (a + b))))
    (FP.abs (FP.ofRat binary64 (a - b))) ||
    FP.gt (.fin ((2 : ℚ) ^ (-1022 : ℤ))) (FP.abs (FP.ofRat binary64 (a - b)))) = true ↔ _
  rw [abs_ofRat, abs_ofRat, Bool.or_eq_true]
  have hmin : (0 : ℚ) < (2 : ℚ) ^ (-1022 : ℤ) := Fmt.two_zpow_pos _
  have hB : (2 : ℚ) ^ (1024 : ℤ) ≤ 2 ^ 52 * ((2 ^ 54 - 1) * (2 : ℚ) ^ (970 : ℤ)) := by
    rw [show (1024 : ℤ) = 54 + 970 by norm_num, zpow_add₀ (by norm_num)]
    have := Fmt.two_zpow_pos 970
    generalize (2 : ℚ) ^ (970 : ℤ) = A at *
    norm_num
    linarith
  by_cases hD : binary64.round |a - b| < (2 : ℚ) ^ (1024 : ℤ)
  · rw [if_pos hD]
    by_cases hS : binary64.round |a + b| < (2 : ℚ) ^ (1024 : ℤ)
    · rw [if_pos hS]
      have hSd : IsDouble (binary64.round |a + b|) := isDouble_round (by
        rw [abs_of_nonneg (binary64.round_nonneg (abs_nonneg _))]; exact hS)
      have hS0 : 0 ≤ binary64.round |a + b| := binary64.round_nonneg (abs_nonneg _)
      have hD1 : binary64.round |a - b| < (2 : ℚ) ^ (-1022 : ℤ) ↔ |a - b| < (2 : ℚ) ^ (-1022 : ℤ) := by
        constructor
        · intro h
          by_contra hcon
          have := binary64.round_mono (by decide) hmin.le (not_lt.1 hcon)
          have hr := binary64.round_exact (m := 1) (j := -1022) (by decide) (by decide)
          rw [Int.cast_one, one_mul] at hr
          rw [hr] at this
          linarith
        · intro h
          rw [← Fmt.abs_round, double_sub_small ha hb h]
          exact h
      have hmul : FP.mul binary64 (.fin (1 / 2 ^ 52)) (.fin (binary64.round |a + b|)) =
          .fin (binary64.round (1 / 2 ^ 52 * binary64.round |a + b|)) := by
        show FP.ofRat binary64 _ = _
        unfold FP.ofRat
        rw [if_pos]
        rw [abs_of_nonneg (binary64.round_nonneg (by positivity))]
        refine (binary64.round_mono (by decide) (by positivity)
          (show 1 / 2 ^ 52 * binary64.round |a + b| ≤ binary64.round |a + b| by norm_num; linarith)).trans_lt ?_
        rw [hSd.round]
        exact hS
      rw [hmul]
      show decide _ = true ∨ decide _ = true ↔ _
      rw [decide_eq_true_iff, decide_eq_true_iff, hD1]
      by_cases hs : |a - b| < (2 : ℚ) ^ (-1022 : ℤ)
      · simp only [hs, or_true, true_or]
      simp only [hs, or_false, false_or, not_le.2 hS]
      have hs := not_lt.1 hs
      by_cases hz : (2 : ℚ) ^ (-1022 : ℤ) ≤ 1 / 2 ^ 52 * binary64.round |a + b|
      · have hr := round_scaled hSd (by rwa [abs_of_nonneg hS0])
        rw [abs_of_nonneg hS0] at hr
        rw [hr]
        constructor
        · intro h
          by_contra hcon
          have h1 : 1 / 2 ^ 52 * binary64.round |a + b| ≤ |a - b| := by
            have := not_lt.1 hcon
            norm_num at this ⊢
            linarith
          have := binary64.round_mono (by decide) (by positivity) h1
          rw [hr] at this
          linarith
        · intro h
          have h1 := double_add ha hb
          have h2 := (abs_le.1 h1).2
          have h4 := abs_nonneg (a + b)
          have h3 : 4 * |a - b| ≤ |a + b| := by
            norm_num at h h2
            linarith [abs_nonneg (a - b)]
          rw [← Fmt.abs_round, double_sub_near ha hb h3]
          norm_num at h ⊢
          linarith
      · have hz := not_le.1 hz
        constructor
        · intro h
          exfalso
          have h1 := binary64.round_mono (by decide) (by positivity) hz.le
          have h2 := binary64.round_mono (by decide) hmin.le hs
          linarith
        · intro h
          exfalso
          norm_num at h hz hs
          linarith
    · rw [if_neg hS]
      have h1 : FP.gt (FP.mul binary64 (.fin (1 / 2 ^ 52)) (.inf false)) (.fin (binary64.round |a - b|)) =
          true := by
        show FP.gt (if (1 / 2 ^ 52 : ℚ) = 0 then FP.nan else .inf (false != decide ((1 / 2 ^ 52 : ℚ) < 0))) _ = true
        rw [if_neg (by norm_num), decide_eq_false (by norm_num)]
        rfl
      simp only [h1, true_or, not_lt.1 hS, or_true]
  · rw [if_neg hD]
    have hB' := not_lt.1 (fun h => hD ((b64_overflow (a - b)).2 h))
    have hS := (b64_overflow (a + b)).2 (not_both ha hb hB')
    rw [if_pos hS]
    have g1 : ∀ z : FP, FP.gt z (.inf false) = false := by
      intro z
      cases z with
      | nan => simp [FP.gt]
      | inf s => simp [FP.gt]
      | fin q => simp [FP.gt]
    simp only [g1, Bool.false_eq_true, false_or, false_iff, not_or, not_lt, not_le]
    refine ⟨le_trans ?_ hB', le_trans hS.le (hB.trans (mul_le_mul_of_nonneg_left hB' (by norm_num))), hS⟩
    refine le_trans (zpow_le_one_of_nonpos₀ (by norm_num) (by norm_num)) ?_
    have : (1 : ℚ) ≤ (2 : ℚ) ^ (970 : ℤ) := one_le_zpow₀ (by norm_num) (by norm_num)
    generalize (2 : ℚ) ^ (970 : ℤ) = A at *
    clear hB hB' hD hS hmin
    norm_num
    linarith

/-! ### Consequences -/

theorem unitsEqF_comm (a b : FP) : unitsEqF a b = unitsEqF b a := by
  cases a with
  | nan => cases b <;> rfl
  | inf s =>
    cases b with
    | nan => rfl
    | fin q => cases s <;> rfl
    | inf t => cases s <;> cases t <;> rfl
  | fin p =>
    cases b with
    | nan => rfl
    | inf t => cases t <;> rfl
    | fin q =>
      unfold unitsEqF
      have h1 : FP.add binary64 (.fin p) (.fin q) = FP.add binary64 (.fin q) (.fin p) := by
        show FP.ofRat _ _ = FP.ofRat _ _
        rw [add_comm]
      have h2 : FP.abs (FP.sub binary64 (.fin p) (.fin q)) = FP.abs (FP.sub binary64 (.fin q) (.fin p)) := by
        show FP.abs (FP.ofRat _ _) = FP.abs (FP.ofRat _ _)
        rw [abs_ofRat, abs_ofRat, abs_sub_comm]
      rw [h1, h2]

theorem unitsEqF_number {a b : FP} (h : unitsEqF a b = true) : (∃ q, a = .fin q) ∧ ∃ q, b = .fin q := by
  cases a with
  | nan => exact absurd h (by rw [unitsEqF_nan]; decide)
  | inf s =>
    cases b with
    | nan => exact absurd h (by rw [unitsEqF_comm, unitsEqF_nan]; decide)
    | inf t => exact absurd h (by cases s <;> cases t <;> decide +kernel)
    | fin q =>
      have : unitsEqF (.inf s) (.fin q) = unitsEqF (.inf s) (.fin 0) := rfl
      rw [this] at h
      exact absurd h (by cases s <;> decide +kernel)
  | fin p =>
    cases b with
    | nan => exact absurd h (by rw [unitsEqF_comm, unitsEqF_nan]; decide)
    | inf t =>
      have : unitsEqF (.fin p) (.inf t) = unitsEqF (.fin 0) (.inf t) := rfl
      rw [this] at h
      exact absurd h (by cases t <;> decide +kernel)
    | fin q => exact ⟨⟨_, rfl⟩, _, rfl⟩

theorem unitsEqF_self (q : ℚ) : unitsEqF (.fin q) (.fin q) = true := by
  unfold unitsEqF
  have h : FP.sub binary64 (.fin q) (.fin q) = .fin 0 := by
    show FP.ofRat binary64 (q - q) = _
    rw [sub_self, isDouble_zero.ofRat]
  rw [h, Bool.or_eq_true]
  right
  show decide (|(0 : ℚ)| < _) = true
  rw [decide_eq_true_iff, abs_zero]
  exact Fmt.two_zpow_pos _

theorem round_two_mul {M : ℚ} (h : IsDouble M) : binary64.round (2 * M) = 2 * M := by
  obtain ⟨m, e, ⟨hm, he, -⟩, rfl, -⟩ := h
  have := binary64.round_exact (m := m) (j := e + 1) hm (he.trans (by omega))
  rw [zpow_add_one₀ (by norm_num), ← mul_assoc, mul_comm _ (2 : ℚ)] at this
  exact this

theorem Spec.IsDouble.max_abs {a b : ℚ} (ha : IsDouble a) (hb : IsDouble b) : IsDouble (max |a| |b|) := by
  have key : ∀ x : ℚ, IsDouble x → IsDouble |x| := fun x hx => by
    rcases abs_choice x with h | h <;> rw [h]
    exacts [hx, hx.neg]
  rcases max_choice |a| |b| with h | h <;> rw [h]
  exacts [key _ ha, key _ hb]

theorem abs_add_le_two_max (a b : ℚ) : |a + b| ≤ 2 * max |a| |b| := by
  have := abs_add_le a b
  have := le_max_left |a| |b|
  have := le_max_right |a| |b|
  linarith

theorem two_max_le (a b : ℚ) : 2 * max |a| |b| ≤ |a + b| + |a - b| := by
  rcases le_total |a| |b| with h | h
  · rw [max_eq_right h]
    have := abs_add_le (a + b) (-(a - b))
    rw [show a + b + -(a - b) = 2 * b by ring, abs_neg, abs_mul, abs_two] at this
    exact this
  · rw [max_eq_left h]
    have := abs_add_le (a + b) (a - b)
    rw [show a + b + (a - b) = 2 * a by ring, abs_mul, abs_two] at this
    exact this

/-- numbers that compare equal are near, unless the sum overflows -/
theorem almostEqual_near {a b : ℚ} (ha : IsDouble a) (hb : IsDouble b) (h : AlmostEqual a b) :
    |a - b| < (2 : ℚ) ^ (-1022 : ℤ) ∨ 2 ^ 51 * |a - b| < max |a| |b| ∨
    (2 ^ 54 - 1) * (2 : ℚ) ^ (970 : ℤ) ≤ |a + b| := by
  rw [almostEqual_iff] at h
  rcases h with h | h | h
  · exact .inl h
  · right; left
    have h1 := binary64.round_mono (by decide) (abs_nonneg _) (abs_add_le_two_max a b)
    rw [round_two_mul (ha.max_abs hb)] at h1
    generalize max |a| |b| = M at *
    norm_num at h ⊢
    linarith
  · right; right
    by_contra hcon
    exact absurd h (not_le.2 ((b64_overflow _).2 (not_le.1 hcon)))

/-- near numbers compare equal -/
theorem almostEqual_of_near {a b : ℚ} (ha : IsDouble a) (hb : IsDouble b)
    (h : 2 ^ 52 * |a - b| ≤ max |a| |b|) : AlmostEqual a b := by
  rw [almostEqual_iff]
  by_cases h0 : max |a| |b| = 0
  · left
    rw [h0] at h
    have : |a - b| = 0 := le_antisymm (by linarith) (abs_nonneg _)
    rw [this]
    exact Fmt.two_zpow_pos _
  · right; left
    have hp : 0 < max |a| |b| := lt_of_le_of_ne (le_max_of_le_left (abs_nonneg a)) (Ne.symm h0)
    have h1 := (abs_le.1 (double_add ha hb)).1
    have h2 := two_max_le a b
    generalize max |a| |b| = M at *
    norm_num at h h1 h2 ⊢
    linarith

/-- what compares equal as computed compares equal in exact arithmetic, unless the sum overflows -/
theorem almostEqual_sound {a b : ℚ} (ha : IsDouble a) (hb : IsDouble b) (h : AlmostEqual a b)
    (hs : |a + b| < (2 ^ 54 - 1) * (2 : ℚ) ^ (970 : ℤ)) : unitsEq (a : ℝ) b := by
  rw [almostEqual_iff] at h
  rcases h with h | h | h
  · right
    unfold dblMin
    have : ((|a - b| : ℚ) : ℝ) < (((2 : ℚ) ^ (-1022 : ℤ) : ℚ) : ℝ) := Rat.cast_lt.2 h
    push_cast at this
    rwa [zpow_neg, ← one_div, show (2 : ℝ) ^ (1022 : ℤ) = 2 ^ 1022 from zpow_natCast _ 1022] at this
  · left
    have h4 := abs_nonneg (a + b)
    have h3 : 4 * |a - b| ≤ |a + b| := by
      have h2 := (abs_le.1 (double_add ha hb)).2
      norm_num at h h2
      linarith [abs_nonneg (a - b)]
    have hx := double_sub_near ha hb h3
    have key : 2 ^ 52 * |a - b| < |a + b| := by
      by_contra hcon
      have h5 := binary64.round_mono (by decide) h4 (not_lt.1 hcon)
      have h6 : binary64.round (2 ^ 52 * |a - b|) = 2 ^ 52 * |a - b| := by
        obtain ⟨m, e, ⟨hm, he, -⟩, hv, -⟩ := binary64.round_nearestEven (by decide) (a - b)
        rw [hx] at hv
        have := binary64.round_exact (m := |m|) (j := e + 52) (by rw [abs_abs]; exact hm) (he.trans (by omega))
        have e1 : 2 ^ 52 * |a - b| = ((|m| : ℤ) : ℚ) * (2 : ℚ) ^ (e + 52) := by
          rw [hv, abs_mul, abs_of_pos (Fmt.two_zpow_pos e), zpow_add₀ (by norm_num)]
          push_cast
          norm_num
          ring
        rwa [← e1] at this
      rw [h6] at h5
      linarith
    have key' : ((2 ^ 52 * |a - b| : ℚ) : ℝ) < ((|a + b| : ℚ) : ℝ) := Rat.cast_lt.2 key
    unfold dblEpsilon
    push_cast at key'
    norm_num at key' ⊢
    linarith
  · exact absurd h (not_le.2 ((b64_overflow _).2 hs))

/-- a `double` and the next one -/
theorem almostEqual_next {m e : ℤ} (hc : 2 ^ 52 ≤ m + 1 ∨ e = -1074)
    (ha : IsDouble (m * (2 : ℚ) ^ e)) (hb : IsDouble ((m + 1 : ℤ) * (2 : ℚ) ^ e)) :
    AlmostEqual (m * (2 : ℚ) ^ e) ((m + 1 : ℤ) * (2 : ℚ) ^ e) := by
  have hp := Fmt.two_zpow_pos e
  have hd : |(m : ℚ) * (2 : ℚ) ^ e - (m + 1 : ℤ) * (2 : ℚ) ^ e| = (2 : ℚ) ^ e := by
    rw [← sub_mul, abs_mul, abs_of_pos hp]
    push_cast
    rw [sub_add_cancel_left, abs_neg, abs_one, one_mul]
  rcases hc with hc | rfl
  · refine almostEqual_of_near ha hb ?_
    rw [hd]
    refine le_max_of_le_right ?_
    rw [abs_mul, abs_of_pos hp, mul_le_mul_iff_left₀ hp]
    refine le_trans ?_ (le_abs_self _)
    exact_mod_cast hc
  · left
    rw [hd]
    exact zpow_lt_zpow_right₀ (by norm_num) (by norm_num)

end Mot
