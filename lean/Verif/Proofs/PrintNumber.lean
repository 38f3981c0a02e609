import Verif.Spec.PrintNumber
import Verif.Proofs.Float
import Mathlib.Data.Nat.Digits.Lemmas
import Mathlib.Tactic.Linarith
import Mathlib.Tactic.Ring
import Mathlib.Tactic.FieldSimp
import Mathlib.Tactic.IntervalCases
/-!
# Lemmas on printed numbers
-/

namespace Mot

open Spec

/-! ## Digits -/

theorem digitChar_val {d : ℕ} (h : d < 10) : (digitChar d).val = 48 + d := by
  show (48 + d) % 256 = 48 + d
  omega

theorem digitsValue_append (t u : Text) :
    digitsValue (t ++ u) = digitsValue t * 10 ^ u.length + digitsValue u := by
  have gen : ∀ (u : Text) (n : ℕ), u.foldl (fun n c => 10 * n + (c.val - 48)) n =
      n * 10 ^ u.length + u.foldl (fun n c => 10 * n + (c.val - 48)) 0 := by
    intro u
    induction u with
    | nil => intro n; simp
    | cons c u ih =>
      intro n
      simp only [List.foldl_cons, List.length_cons]
      rw [ih, ih (10 * 0 + _), pow_succ]
      ring
  unfold digitsValue
  rw [List.foldl_append, gen]

/-- the value of a list of digits -/
def listValue (l : List ℕ) : ℕ := l.foldl (fun n d => 10 * n + d) 0

theorem digitsValue_map {l : List ℕ} (h : ∀ d ∈ l, d < 10) : digitsValue (l.map digitChar) = listValue l := by
  unfold digitsValue listValue
  rw [List.foldl_map]
  generalize 0 = n
  induction l generalizing n with
  | nil => rfl
  | cons d l ih =>
    simp only [List.foldl_cons]
    rw [digitChar_val (h d (by simp)), Nat.add_sub_cancel_left]
    exact ih (fun x hx => h x (by simp [hx])) _

theorem listValue_append (t u : List ℕ) : listValue (t ++ u) = listValue t * 10 ^ u.length + listValue u := by
  have gen : ∀ (u : List ℕ) (n : ℕ), u.foldl (fun n d => 10 * n + d) n =
      n * 10 ^ u.length + u.foldl (fun n d => 10 * n + d) 0 := by
    intro u
    induction u with
    | nil => intro n; simp
    | cons c u ih =>
      intro n
      simp only [List.foldl_cons, List.length_cons]
      rw [ih, ih (10 * 0 + _), pow_succ]
      ring
  unfold listValue
  rw [List.foldl_append, gen]

theorem listValue_zeros (k : ℕ) : listValue (List.replicate k 0) = 0 := by
  induction k with
  | zero => rfl
  | succ k ih =>
    rw [List.replicate_succ]
    exact ih

theorem sixList_lt {m d : ℕ} (h : d ∈ sixList m) : d < 10 := by
  simp only [sixList, List.mem_cons, List.not_mem_nil, or_false] at h
  omega

theorem sixList_value {m : ℕ} (h : m < 1000000) : listValue (sixList m) = m := by
  simp only [listValue, sixList, List.foldl_cons, List.foldl_nil]
  omega

theorem stripZeros_spec (l : List ℕ) : l = stripZeros l ++ List.replicate (l.length - (stripZeros l).length) 0 ∧
    (stripZeros l).length ≤ l.length := by
  induction l with
  | nil => exact ⟨rfl, le_rfl⟩
  | cons d l ih =>
    unfold stripZeros
    split_ifs with h
    · obtain ⟨rfl, h⟩ := h
      rw [h] at ih
      refine ⟨?_, by simp⟩
      simp only [List.length_nil, Nat.sub_zero, List.nil_append, List.length_cons, List.replicate_succ] at ih ⊢
      rw [← ih.1]
    · refine ⟨?_, by simpa using ih.2⟩
      simp only [List.length_cons, List.cons_append, List.cons.injEq, true_and]
      rw [Nat.add_sub_add_right]
      exact ih.1

theorem stripZeros_mem {l : List ℕ} {d : ℕ} (h : d ∈ stripZeros l) : d ∈ l := by
  rw [(stripZeros_spec l).1]
  exact List.mem_append_left _ h

theorem stripZeros_value (l : List ℕ) :
    listValue (stripZeros l) * 10 ^ (l.length - (stripZeros l).length) = listValue l := by
  conv_rhs => rw [(stripZeros_spec l).1]
  rw [listValue_append, listValue_zeros, List.length_replicate, add_zero]

/-! ## Reading back -/

theorem digit_ne {d : ℕ} (h : d < 10) : digitChar d ≠ 101 ∧ digitChar d ≠ 46 ∧ digitChar d ≠ 45 ∧ digitChar d ≠ 43 ∧
    digitChar d ≠ space ∧ digitChar d ≠ newline ∧ digitChar d ≠ 110 ∧ digitChar d ≠ 105 := by
  interval_cases d <;> decide

theorem takeWhile_append_cons {p : Fin 256 → Bool} {a r : Text} {c : Fin 256} (ha : ∀ x ∈ a, p x = true)
    (hc : p c = false) : (a ++ c :: r).takeWhile p = a ∧ (a ++ c :: r).dropWhile p = c :: r := by
  rw [List.takeWhile_append_of_pos ha, List.dropWhile_append_of_pos ha]
  simp [hc]

theorem takeWhile_all {p : Fin 256 → Bool} {a : Text} (ha : ∀ x ∈ a, p x = true) :
    a.takeWhile p = a ∧ a.dropWhile p = [] := by
  have h1 := List.takeWhile_append_of_pos (l₂ := []) ha
  have h2 := List.dropWhile_append_of_pos (l₂ := []) ha
  rw [List.append_nil] at h1 h2
  exact ⟨by simpa using h1, h2⟩

theorem pointText_mem {ints frac : List ℕ} (hi : ∀ d ∈ ints, d < 10) (hf : ∀ d ∈ frac, d < 10) {c : Fin 256}
    (h : c ∈ pointText ints frac) : c = 46 ∨ ∃ d < 10, c = digitChar d := by
  unfold pointText at h
  rw [List.mem_append] at h
  rcases h with h | h
  · obtain ⟨d, hd, rfl⟩ := List.mem_map.1 h
    exact .inr ⟨d, hi d hd, rfl⟩
  · split_ifs at h with h0
    · simp at h
    · rcases List.mem_cons.1 h with h | h
      · exact .inl h
      · obtain ⟨d, hd, rfl⟩ := List.mem_map.1 h
        exact .inr ⟨d, hf d hd, rfl⟩

/-- the mantissa, split at the point -/
theorem pointText_split {ints frac : List ℕ} (hi : ∀ d ∈ ints, d < 10) :
    (pointText ints frac).takeWhile (· ≠ 46) = ints.map digitChar ∧
      ((pointText ints frac).dropWhile (· ≠ 46)).drop 1 = frac.map digitChar := by
  have hd : ∀ x ∈ ints.map digitChar, decide (x ≠ 46) = true := by
    intro x hx
    obtain ⟨d, hd, rfl⟩ := List.mem_map.1 hx
    exact decide_eq_true (digit_ne (hi d hd)).2.1
  unfold pointText
  split_ifs with h
  · obtain ⟨h1, h2⟩ := takeWhile_all hd
    rw [List.append_nil, h1, h2, h]
    exact ⟨rfl, rfl⟩
  · obtain ⟨h1, h2⟩ := takeWhile_append_cons (r := frac.map digitChar) (c := 46) hd (by decide)
    rw [h1, h2]
    exact ⟨rfl, rfl⟩

theorem unsigned_point {ints frac : List ℕ} (hi : ∀ d ∈ ints, d < 10) (hf : ∀ d ∈ frac, d < 10) :
    unsignedValue (pointText ints frac) = listValue (ints ++ frac) * 10 ^ (-frac.length : ℤ) := by
  have ha : ∀ x ∈ pointText ints frac, decide (x ≠ 101) = true := by
    intro x hx
    rcases pointText_mem hi hf hx with rfl | ⟨d, hd, rfl⟩
    · decide
    · exact decide_eq_true (digit_ne hd).1
  obtain ⟨h1, h2⟩ := takeWhile_all ha
  obtain ⟨h3, h4⟩ := pointText_split (frac := frac) hi
  unfold unsignedValue
  simp only [h1, h2, h3, h4, List.drop_nil, exponentValue, List.length_map, zero_sub]
  rw [← List.map_append, digitsValue_map (fun d hd => (List.mem_append.1 hd).elim (hi d) (hf d))]

theorem unsigned_exponent {ints frac : List ℕ} (hi : ∀ d ∈ ints, d < 10) (hf : ∀ d ∈ frac, d < 10) (e : Text) :
    unsignedValue (pointText ints frac ++ 101 :: e) =
      listValue (ints ++ frac) * 10 ^ (exponentValue e - frac.length) := by
  have ha : ∀ x ∈ pointText ints frac, decide (x ≠ 101) = true := by
    intro x hx
    rcases pointText_mem hi hf hx with rfl | ⟨d, hd, rfl⟩
    · decide
    · exact decide_eq_true (digit_ne hd).1
  obtain ⟨h1, h2⟩ := takeWhile_append_cons (r := e) (c := 101) ha (by decide)
  obtain ⟨h3, h4⟩ := pointText_split (frac := frac) hi
  unfold unsignedValue
  simp only [h1, h2, h3, h4, List.drop_succ_cons, List.drop_zero, List.length_map]
  rw [← List.map_append, digitsValue_map (fun d hd => (List.mem_append.1 hd).elim (hi d) (hf d))]

theorem exponentText_digits (e : ℤ) :
    ∀ d ∈ (if e.natAbs < 10 then [0, e.natAbs] else (Nat.digits 10 e.natAbs).reverse), d < 10 := by
  intro d hd
  split_ifs at hd with h
  · simp only [List.mem_cons, List.not_mem_nil, or_false] at hd
    omega
  · exact Nat.digits_lt_base (by norm_num) (List.mem_reverse.1 hd)

theorem listValue_digits (n : ℕ) : listValue (Nat.digits 10 n).reverse = n := by
  conv_rhs => rw [← Nat.ofDigits_digits 10 n]
  generalize Nat.digits 10 n = l
  induction l with
  | nil => rfl
  | cons d l ih =>
    rw [List.reverse_cons, listValue_append, ih, Nat.ofDigits_cons]
    simp only [listValue, List.length_singleton, List.foldl_cons, List.foldl_nil]
    ring

theorem exponentValue_text (e : ℤ) : exponentValue (exponentText e) = e := by
  unfold exponentText exponentValue
  have hv : digitsValue ((if e.natAbs < 10 then [0, e.natAbs] else (Nat.digits 10 e.natAbs).reverse).map digitChar) =
      e.natAbs := by
    rw [digitsValue_map (exponentText_digits e)]
    split_ifs with h
    · simp [listValue]
    · exact listValue_digits _
  by_cases h : e < 0
  · simp only [h, if_true, hv]
    omega
  · simp only [h, if_false, hv]
    rw [if_neg (by decide), if_pos trivial]
    omega

/-- the number shown for a positive number -/
def shown (a : ℚ) : ℚ := (sixDigits a).1 * 10 ^ ((sixDigits a).2 - 5)

theorem log_bounds {a : ℚ} (h : 0 < a) : (10 : ℚ) ^ Int.log 10 a ≤ a ∧ a < 10 ^ (Int.log 10 a + 1) := by
  have h1 := Int.zpow_log_le_self (b := 10) (by norm_num) h
  have h2 := Int.lt_zpow_succ_log_self (b := 10) (by norm_num) a
  push_cast at h1 h2
  exact ⟨h1, h2⟩

/-- the scaled number lies between 100000 and 1000000 -/
theorem scaled_bounds {a : ℚ} (h : 0 < a) : (100000 : ℚ) ≤ a / 10 ^ (Int.log 10 a - 5) ∧
    a / 10 ^ (Int.log 10 a - 5) < 1000000 := by
  obtain ⟨h1, h2⟩ := log_bounds h
  have h0 : (0 : ℚ) < 10 ^ (Int.log 10 a - 5) := zpow_pos (by norm_num) _
  rw [le_div_iff₀ h0, div_lt_iff₀ h0]
  have e1 : (10 : ℚ) ^ Int.log 10 a = 100000 * 10 ^ (Int.log 10 a - 5) := by
    rw [zpow_sub₀ (by norm_num)]
    norm_num
    ring
  have e2 : (10 : ℚ) ^ (Int.log 10 a + 1) = 1000000 * 10 ^ (Int.log 10 a - 5) := by
    rw [zpow_sub₀ (by norm_num), zpow_add₀ (by norm_num)]
    norm_num
    ring
  rw [← e1, ← e2]
  exact ⟨h1, h2⟩

theorem round_bounds {a : ℚ} (h : 0 < a) : 100000 ≤ roundHalfEven (a / 10 ^ (Int.log 10 a - 5)) ∧
    roundHalfEven (a / 10 ^ (Int.log 10 a - 5)) ≤ 1000000 := by
  obtain ⟨h1, h2⟩ := scaled_bounds h
  exact ⟨le_roundHalfEven_of_int_le (by exact_mod_cast h1), roundHalfEven_le_of_le_int (by exact_mod_cast h2.le)⟩

theorem sixDigits_bounds {a : ℚ} (h : 0 < a) : 100000 ≤ (sixDigits a).1 ∧ (sixDigits a).1 < 1000000 := by
  obtain ⟨h1, h2⟩ := round_bounds h
  unfold sixDigits
  dsimp only
  split_ifs with hm
  · exact ⟨le_rfl, by norm_num⟩
  · constructor
    · show 100000 ≤ (roundHalfEven _).toNat
      omega
    · show (roundHalfEven _).toNat < 1000000
      omega

/-- the number shown is the scaled rounded one -/
theorem shown_eq {a : ℚ} (h : 0 < a) :
    shown a = roundHalfEven (a / 10 ^ (Int.log 10 a - 5)) * 10 ^ (Int.log 10 a - 5) := by
  obtain ⟨h1, -⟩ := round_bounds h
  unfold shown sixDigits
  dsimp only
  split_ifs with hm
  · have : roundHalfEven (a / 10 ^ (Int.log 10 a - 5)) = 1000000 := by omega
    rw [this]
    show ((100000 : ℕ) : ℚ) * 10 ^ (Int.log 10 a + 1 - 5) = _
    rw [show Int.log 10 a + 1 - 5 = (Int.log 10 a - 5) + 1 by ring, zpow_add₀ (by norm_num)]
    norm_num
    ring
  · show (((roundHalfEven (a / 10 ^ (Int.log 10 a - 5))).toNat : ℕ) : ℚ) * _ = _
    have : (((roundHalfEven (a / 10 ^ (Int.log 10 a - 5))).toNat : ℕ) : ℤ) =
        roundHalfEven (a / 10 ^ (Int.log 10 a - 5)) := Int.toNat_of_nonneg (by omega)
    congr 1
    exact_mod_cast congrArg (fun z : ℤ => (z : ℚ)) this

/-- the value of digits split somewhere, trailing zeros dropped -/
theorem split_value (a b : List ℕ) :
    (listValue (a ++ stripZeros b) : ℚ) * 10 ^ (-(stripZeros b).length : ℤ) =
      listValue (a ++ b) * 10 ^ (-b.length : ℤ) := by
  have h1 := stripZeros_value b
  have h2 := (stripZeros_spec b).2
  obtain ⟨k, hk⟩ := Nat.exists_eq_add_of_le h2
  rw [hk, Nat.add_sub_cancel_left] at h1
  have e : listValue (a ++ b) = listValue (a ++ stripZeros b) * 10 ^ k := by
    rw [listValue_append, listValue_append, ← h1, hk, pow_add]
    ring
  rw [e, hk]
  push_cast
  rw [neg_add, zpow_add₀ (by norm_num : (10 : ℚ) ≠ 0), zpow_neg _ (k : ℤ), zpow_natCast]
  field_simp

theorem positive_value {a : ℚ} (h : 0 < a) : unsignedValue (positiveText a) = shown a := by
  obtain ⟨-, hm⟩ := sixDigits_bounds h
  unfold positiveText shown
  generalize (sixDigits a).1 = m at hm ⊢
  generalize (sixDigits a).2 = x
  dsimp only
  have hs : ∀ d ∈ sixList m, d < 10 := fun d => sixList_lt
  have hlen : (sixList m).length = 6 := rfl
  split_ifs with h1 h2
  · rw [unsigned_point (fun d hd => hs d (List.mem_of_mem_take hd))
      (fun d hd => hs d (List.mem_of_mem_drop (stripZeros_mem hd))), split_value, List.take_append_drop,
      sixList_value hm, List.length_drop, hlen]
    congr 2
    omega
  · rw [unsigned_point (by simp) (by
      intro d hd
      rcases List.mem_append.1 hd with hd | hd
      · rw [List.mem_replicate] at hd; omega
      · exact hs d (stripZeros_mem hd))]
    have e := split_value ([0] ++ List.replicate (-x - 1).toNat 0) (sixList m)
    rw [List.append_assoc] at e
    rw [List.length_append, List.length_replicate, Nat.cast_add, neg_add, zpow_add₀ (by norm_num), mul_left_comm, e]
    have ez : listValue ([0] ++ List.replicate (-x - 1).toNat 0 ++ sixList m) = m := by
      rw [listValue_append, sixList_value hm]
      have : listValue ([0] ++ List.replicate (-x - 1).toNat 0) = 0 := by
        have := listValue_zeros ((-x - 1).toNat + 1)
        rwa [List.replicate_succ] at this
      rw [this]; ring
    rw [ez, hlen, mul_left_comm, ← zpow_add₀ (by norm_num)]
    congr 2
    omega
  · rw [unsigned_exponent (fun d hd => hs d (List.mem_of_mem_take hd))
      (fun d hd => hs d (List.mem_of_mem_drop (stripZeros_mem hd))), exponentValue_text, sub_eq_add_neg,
      zpow_add₀ (by norm_num), mul_left_comm, split_value, List.take_append_drop, sixList_value hm,
      List.length_drop, hlen, mul_left_comm, ← zpow_add₀ (by norm_num)]
    rfl

/-! ## Rounding to six digits -/

theorem roundHalfEven_tie {y : ℚ} (h : |(roundHalfEven y : ℚ) - y| = 1 / 2) : Even (roundHalfEven y) := by
  have h1 := Int.floor_le y
  have h2 := Int.lt_floor_add_one y
  unfold roundHalfEven at h ⊢
  split_ifs at h ⊢ with c1 c2 c3
  · rw [abs_sub_comm, abs_of_nonneg (by linarith)] at h
    linarith
  · push_cast at h
    rw [abs_of_nonneg (by linarith)] at h
    linarith
  · exact Int.even_iff.2 c3
  · exact Int.even_iff.2 (by omega)

theorem Spec.Rounds6.unique {q r r' : ℚ} (h : Rounds6 q r) (h' : Rounds6 q r') : r = r' := by
  rcases h with ⟨h0, hr⟩ | ⟨e, n, h1, h2, h3, h4, h5⟩ <;> rcases h' with ⟨h0', hr'⟩ | ⟨e', n', h1', h2', h3', h4', h5'⟩
  · rw [hr, hr']
  · rw [h0, abs_zero] at h1'
    exact absurd h1' (not_le.2 (zpow_pos (by norm_num) _))
  · rw [h0', abs_zero] at h1
    exact absurd h1 (not_le.2 (zpow_pos (by norm_num) _))
  · have a1 : e < e' + 1 := (zpow_lt_zpow_iff_right₀ (by norm_num : (1 : ℚ) < 10)).1 (h1.trans_lt h2')
    have a2 : e' < e + 1 := (zpow_lt_zpow_iff_right₀ (by norm_num : (1 : ℚ) < 10)).1 (h1'.trans_lt h2)
    obtain rfl : e = e' := by omega
    have hs : (0 : ℚ) < 10 ^ (e - 5) := zpow_pos (by norm_num) _
    generalize (10 : ℚ) ^ (e - 5) = s at *
    by_contra hne
    have hn : n ≠ n' := fun hc => hne (by rw [h3, h3', hc])
    have b := abs_le.1 h4
    have b' := abs_le.1 h4'
    have key : ∀ {n n' : ℤ} {r r' : ℚ}, r = n * s → r' = n' * s → |r - q| ≤ s / 2 → |r' - q| ≤ s / 2 → n < n' →
        n' = n + 1 ∧ |r - q| = s / 2 ∧ |r' - q| = s / 2 := by
      intro n n' r r' h3 h3' h4 h4' hlt
      have b := abs_le.1 h4
      have b' := abs_le.1 h4'
      have c1 : (n : ℚ) + 1 ≤ n' := by exact_mod_cast hlt
      have c2 : (n' - n : ℚ) * s ≤ 1 * s := by
        have : (n' - n : ℚ) * s = r' - r := by rw [h3, h3']; ring
        rw [this]
        linarith [b.1, b'.2]
      have c3 : (n' - n : ℚ) ≤ 1 := le_of_mul_le_mul_right c2 hs
      have c4 : n' = n + 1 := by
        have : (n' : ℚ) ≤ n + 1 := by linarith
        have : n' ≤ n + 1 := by exact_mod_cast this
        omega
      have c5 : r' = r + s := by rw [h3, h3', c4]; push_cast; ring
      have c6 : r - q = -(s / 2) := by linarith [b.1, b'.2]
      have c7 : r' - q = s / 2 := by linarith
      refine ⟨c4, ?_, ?_⟩
      · rw [c6, abs_neg, abs_of_pos (by linarith)]
      · rw [c7, abs_of_pos (by linarith)]
    rcases lt_or_gt_of_ne hn with hlt | hlt
    · obtain ⟨c, t, t'⟩ := key h3 h3' h4 h4' hlt
      obtain ⟨x, hx⟩ := h5 t
      obtain ⟨y, hy⟩ := h5' t'
      omega
    · obtain ⟨c, t, t'⟩ := key h3' h3 h4' h4 hlt
      obtain ⟨x, hx⟩ := h5' t
      obtain ⟨y, hy⟩ := h5 t'
      omega

theorem Spec.Rounds6.neg {q r : ℚ} (h : Rounds6 q r) : Rounds6 (-q) (-r) := by
  rcases h with ⟨h0, hr⟩ | ⟨e, n, h1, h2, h3, h4, h5⟩
  · exact .inl ⟨by rw [h0, neg_zero], by rw [hr, neg_zero]⟩
  · have hd : |-r - -q| = |r - q| := by rw [← abs_neg (r - q)]; congr 1; ring
    refine .inr ⟨e, -n, by rwa [abs_neg], by rwa [abs_neg], by rw [h3]; push_cast; ring, by rwa [hd], fun h => ?_⟩
    rw [hd] at h
    exact (h5 h).neg

theorem rounds6_shown {a : ℚ} (h : 0 < a) : Rounds6 a (shown a) := by
  obtain ⟨h1, h2⟩ := log_bounds h
  have hs : (0 : ℚ) < 10 ^ (Int.log 10 a - 5) := zpow_pos (by norm_num) _
  have hd : |shown a - a| = |(roundHalfEven (a / 10 ^ (Int.log 10 a - 5)) : ℚ) - a / 10 ^ (Int.log 10 a - 5)| *
      10 ^ (Int.log 10 a - 5) := by
    rw [shown_eq h]
    have e : ∀ n s : ℚ, 0 < s → |n * s - a| = |n - a / s| * s := by
      intro n s hs
      rw [← abs_of_pos hs, ← abs_mul, abs_of_pos hs, sub_mul, div_mul_cancel₀ _ hs.ne']
    exact e _ _ hs
  refine .inr ⟨Int.log 10 a, roundHalfEven (a / 10 ^ (Int.log 10 a - 5)), by rwa [abs_of_pos h],
    by rwa [abs_of_pos h], shown_eq h, ?_, fun ht => ?_⟩
  · rw [hd]
    have := mul_le_mul_of_nonneg_right (abs_roundHalfEven_sub_le (a / 10 ^ (Int.log 10 a - 5))) hs.le
    linarith
  · rw [hd, show ∀ s : ℚ, s / 2 = 1 / 2 * s from fun s => by ring] at ht
    exact roundHalfEven_tie (mul_right_cancel₀ hs.ne' ht)

theorem shown_pos {a : ℚ} (h : 0 < a) : 0 < shown a := by
  have := (sixDigits_bounds h).1
  unfold shown
  have h1 : (0 : ℚ) < (sixDigits a).1 := by exact_mod_cast (by omega : 0 < (sixDigits a).1)
  exact mul_pos h1 (zpow_pos (by norm_num) _)

/-- six digits are determined by their value -/
theorem sixDigits_inj {a b : ℚ} (ha : 0 < a) (hb : 0 < b) (h : shown a = shown b) : sixDigits a = sixDigits b := by
  obtain ⟨a1, a2⟩ := sixDigits_bounds ha
  obtain ⟨b1, b2⟩ := sixDigits_bounds hb
  unfold shown at h
  have key : ∀ {m n : ℕ} {x y : ℤ}, 100000 ≤ m → n < 1000000 → (m : ℚ) * 10 ^ (x - 5) = n * 10 ^ (y - 5) → x ≤ y := by
    intro m n x y hm hn h
    by_contra hc
    have h1 : (10 : ℚ) ^ (y + 1 - 5) ≤ 10 ^ (x - 5) := zpow_le_zpow_right₀ (by norm_num) (by omega)
    have h2 : (100000 : ℚ) ≤ m := by exact_mod_cast hm
    have h3 : (n : ℚ) < 1000000 := by exact_mod_cast hn
    have h4 : (10 : ℚ) ^ (y + 1 - 5) = 10 * 10 ^ (y - 5) := by
      rw [show y + 1 - 5 = (y - 5) + 1 by ring, zpow_add₀ (by norm_num)]
      ring
    have h5 : (0 : ℚ) < 10 ^ (y - 5) := zpow_pos (by norm_num) _
    rw [h4] at h1
    nlinarith
  have hx : (sixDigits a).2 = (sixDigits b).2 := le_antisymm (key a1 b2 h) (key b1 a2 h.symm)
  rw [hx] at h
  have := mul_right_cancel₀ (zpow_pos (by norm_num : (0 : ℚ) < 10) _).ne' h
  exact Prod.ext (by exact_mod_cast this) hx

theorem positiveText_inj {a b : ℚ} (ha : 0 < a) (hb : 0 < b) (h : shown a = shown b) :
    positiveText a = positiveText b := by
  unfold positiveText
  rw [sixDigits_inj ha hb h]

/-! ## Characters -/

/-- a numeral of a positive number begins with a digit -/
theorem positiveText_head (a : ℚ) : ∃ d < 10, ∃ r, positiveText a = digitChar d :: r := by
  unfold positiveText pointText
  dsimp only
  split_ifs <;> first
    | exact ⟨0, by norm_num, _, rfl⟩
    | exact ⟨_, Nat.mod_lt _ (by norm_num), _, rfl⟩

theorem exponentText_mem {e : ℤ} {c : Fin 256} (h : c ∈ exponentText e) :
    c = 45 ∨ c = 43 ∨ ∃ d < 10, c = digitChar d := by
  unfold exponentText at h
  rcases List.mem_cons.1 h with h | h
  · split_ifs at h
    · exact .inl h
    · exact .inr (.inl h)
  · obtain ⟨d, hd, rfl⟩ := List.mem_map.1 h
    exact .inr (.inr ⟨d, exponentText_digits e d hd, rfl⟩)

theorem positiveText_mem {a : ℚ} {c : Fin 256} (h : c ∈ positiveText a) :
    c = 45 ∨ c = 43 ∨ c = 46 ∨ c = 101 ∨ ∃ d < 10, c = digitChar d := by
  have hs : ∀ m, ∀ d ∈ sixList m, d < 10 := fun m d => sixList_lt
  unfold positiveText at h
  dsimp only at h
  split_ifs at h
  · rcases pointText_mem (fun d hd => hs _ d (List.mem_of_mem_take hd))
      (fun d hd => hs _ d (List.mem_of_mem_drop (stripZeros_mem hd))) h with h | h
    · exact .inr (.inr (.inl h))
    · exact .inr (.inr (.inr (.inr h)))
  · rcases pointText_mem (by simp) (by
      intro d hd
      rcases List.mem_append.1 hd with hd | hd
      · rw [List.mem_replicate] at hd; omega
      · exact hs _ d (stripZeros_mem hd)) h with h | h
    · exact .inr (.inr (.inl h))
    · exact .inr (.inr (.inr (.inr h)))
  · rcases List.mem_append.1 h with h | h
    · rcases pointText_mem (fun d hd => hs _ d (List.mem_of_mem_take hd))
        (fun d hd => hs _ d (List.mem_of_mem_drop (stripZeros_mem hd))) h with h | h
      · exact .inr (.inr (.inl h))
      · exact .inr (.inr (.inr (.inr h)))
    · rcases List.mem_cons.1 h with h | h
      · exact .inr (.inr (.inr (.inl h)))
      · rcases exponentText_mem h with h | h | h
        · exact .inl h
        · exact .inr (.inl h)
        · exact .inr (.inr (.inr (.inr h)))

theorem positiveText_plain {a : ℚ} : space ∉ positiveText a ∧ newline ∉ positiveText a := by
  constructor <;> intro h <;> rcases positiveText_mem h with h | h | h | h | ⟨d, hd, h⟩ <;>
    first
      | exact absurd h (by decide)
      | exact (digit_ne hd).2.2.2.2.1 h.symm
      | exact (digit_ne hd).2.2.2.2.2.1 h.symm

theorem FP.text_plain (x : FP) : x.text ≠ [] ∧ space ∉ x.text ∧ newline ∉ x.text := by
  cases x with
  | nan => exact ⟨by decide, by decide, by decide⟩
  | inf s => cases s <;> exact ⟨by decide, by decide, by decide⟩
  | fin q =>
    unfold FP.text
    dsimp only
    split_ifs
    · exact ⟨by decide, by decide, by decide⟩
    · refine ⟨by simp, ?_, ?_⟩
      · rw [List.mem_cons, not_or]; exact ⟨by decide, positiveText_plain.1⟩
      · rw [List.mem_cons, not_or]; exact ⟨by decide, positiveText_plain.2⟩
    · obtain ⟨d, -, r, hr⟩ := positiveText_head q
      exact ⟨by rw [hr]; simp, positiveText_plain.1, positiveText_plain.2⟩

/-! ## The value of a numeral -/

theorem decimal_text_pos {q : ℚ} (h : 0 < q) : decimalValue (FP.fin q).text = shown q := by
  unfold FP.text
  dsimp only
  rw [if_neg h.ne', if_neg (not_lt.2 h.le)]
  obtain ⟨d, hd, r, hr⟩ := positiveText_head q
  rw [← positive_value h, hr]
  unfold decimalValue
  dsimp only
  rw [if_neg (digit_ne hd).2.2.1]

theorem decimal_text_neg {q : ℚ} (h : q < 0) : decimalValue (FP.fin q).text = -shown (-q) := by
  unfold FP.text
  dsimp only
  rw [if_neg h.ne, if_pos h, ← positive_value (neg_pos.2 h)]
  rfl

theorem decimal_text_zero : decimalValue (FP.fin 0).text = 0 := by
  have : (FP.fin 0).text = ascii "0" := by
    unfold FP.text
    dsimp only
    rw [if_pos rfl]
  rw [this]
  have e : ascii "0" = pointText [0] [] := by decide
  have e' : decimalValue (ascii "0") = unsignedValue (ascii "0") := by
    have : ascii "0" = [48] := by decide
    rw [this]
    unfold decimalValue
    dsimp only
    rw [if_neg (by decide)]
  rw [e', e, unsigned_point (by simp) (by simp)]
  simp [listValue]

theorem rounds6_text (q : ℚ) : Rounds6 q (decimalValue (FP.fin q).text) := by
  rcases lt_trichotomy q 0 with h | rfl | h
  · rw [decimal_text_neg h]
    have := (rounds6_shown (neg_pos.2 h)).neg
    rwa [neg_neg] at this
  · exact .inl ⟨rfl, decimal_text_zero⟩
  · rw [decimal_text_pos h]
    exact rounds6_shown h

theorem text_of_decimal {q q' : ℚ} (h : decimalValue (FP.fin q).text = decimalValue (FP.fin q').text) :
    (FP.fin q).text = (FP.fin q').text := by
  rcases lt_trichotomy q 0 with h1 | rfl | h1 <;> rcases lt_trichotomy q' 0 with h2 | rfl | h2
  · rw [decimal_text_neg h1, decimal_text_neg h2, neg_inj] at h
    unfold FP.text
    dsimp only
    rw [if_neg h1.ne, if_pos h1, if_neg h2.ne, if_pos h2, positiveText_inj (neg_pos.2 h1) (neg_pos.2 h2) h]
  · rw [decimal_text_neg h1, decimal_text_zero] at h
    linarith [shown_pos (neg_pos.2 h1)]
  · rw [decimal_text_neg h1, decimal_text_pos h2] at h
    linarith [shown_pos (neg_pos.2 h1), shown_pos h2]
  · rw [decimal_text_neg h2, decimal_text_zero] at h
    linarith [shown_pos (neg_pos.2 h2)]
  · rfl
  · rw [decimal_text_pos h2, decimal_text_zero] at h
    linarith [shown_pos h2]
  · rw [decimal_text_neg h2, decimal_text_pos h1] at h
    linarith [shown_pos (neg_pos.2 h2), shown_pos h1]
  · rw [decimal_text_pos h1, decimal_text_zero] at h
    linarith [shown_pos h1]
  · rw [decimal_text_pos h1, decimal_text_pos h2] at h
    unfold FP.text
    dsimp only
    rw [if_neg h1.ne', if_neg (not_lt.2 h1.le), if_neg h2.ne', if_neg (not_lt.2 h2.le), positiveText_inj h1 h2 h]

/-- the numeral of a number begins with a digit, or with a minus and a digit -/
theorem text_head (q : ℚ) : ∃ d < 10, ∃ r, (FP.fin q).text = digitChar d :: r ∨
    (FP.fin q).text = 45 :: digitChar d :: r := by
  unfold FP.text
  dsimp only
  split_ifs
  · exact ⟨0, by norm_num, [], .inl (by decide)⟩
  · obtain ⟨d, hd, r, hr⟩ := positiveText_head (-q)
    exact ⟨d, hd, r, .inr (by rw [hr])⟩
  · obtain ⟨d, hd, r, hr⟩ := positiveText_head q
    exact ⟨d, hd, r, .inl hr⟩

theorem text_eq_iff (x y : FP) : x.text = y.text ↔ LookAlike x y := by
  have hn : ∀ q, (FP.fin q).text ≠ FP.nan.text := by
    intro q h
    obtain ⟨d, hd, r, hr | hr⟩ := text_head q <;> rw [hr] at h
    · exact (digit_ne hd).2.2.2.2.2.2.1 (List.cons.inj h).1
    · exact absurd (List.cons.inj h).1 (by decide)
  have hi : ∀ q s, (FP.fin q).text ≠ (FP.inf s).text := by
    intro q s h
    obtain ⟨d, hd, r, hr | hr⟩ := text_head q <;> rw [hr] at h <;> cases s
    · exact (digit_ne hd).2.2.2.2.2.2.2 (List.cons.inj h).1
    · exact (digit_ne hd).2.2.1 (List.cons.inj h).1
    · exact absurd (List.cons.inj h).1 (by decide)
    · exact (digit_ne hd).2.2.2.2.2.2.2 (List.cons.inj (List.cons.inj h).2).1
  cases x with
  | nan =>
    cases y with
    | nan => exact ⟨fun _ => trivial, fun _ => rfl⟩
    | inf s => exact ⟨fun h => absurd h (by cases s <;> decide), fun h => h.elim⟩
    | fin q => exact ⟨fun h => (hn q h.symm).elim, fun h => h.elim⟩
  | inf s =>
    cases y with
    | nan => exact ⟨fun h => absurd h (by cases s <;> decide), fun h => h.elim⟩
    | inf s' =>
      refine ⟨fun h => ?_, fun h => by rw [show s = s' from h]⟩
      cases s <;> cases s' <;> first | rfl | exact absurd h (by decide)
    | fin q => exact ⟨fun h => (hi q s h.symm).elim, fun h => h.elim⟩
  | fin q =>
    cases y with
    | nan => exact ⟨fun h => (hn q h).elim, fun h => h.elim⟩
    | inf s => exact ⟨fun h => (hi q s h).elim, fun h => h.elim⟩
    | fin q' =>
      constructor
      · intro h
        exact ⟨_, rounds6_text q, by rw [h]; exact rounds6_text q'⟩
      · rintro ⟨r, h1, h2⟩
        exact text_of_decimal (((rounds6_text q).unique h1).trans (h2.unique (rounds6_text q')))

theorem shown_mono {a b : ℚ} (ha : 0 < a) (h : a ≤ b) : shown a ≤ shown b := by
  have hb := ha.trans_le h
  have hl := Int.log_mono_right (b := 10) ha h
  rcases hl.eq_or_lt with he | hlt
  · rw [shown_eq ha, shown_eq hb, he]
    have hs : (0 : ℚ) < 10 ^ (Int.log 10 b - 5) := zpow_pos (by norm_num) _
    refine mul_le_mul_of_nonneg_right ?_ hs.le
    exact_mod_cast roundHalfEven_mono (div_le_div_of_nonneg_right h hs.le)
  · have ea : shown a ≤ 10 ^ (Int.log 10 a + 1) := by
      rw [shown_eq ha]
      have h1 : (roundHalfEven (a / 10 ^ (Int.log 10 a - 5)) : ℚ) ≤ 1000000 := by exact_mod_cast (round_bounds ha).2
      have hs : (0 : ℚ) < 10 ^ (Int.log 10 a - 5) := zpow_pos (by norm_num) _
      have e2 : (10 : ℚ) ^ (Int.log 10 a + 1) = 1000000 * 10 ^ (Int.log 10 a - 5) := by
        rw [zpow_sub₀ (by norm_num), zpow_add₀ (by norm_num)]
        norm_num
        ring
      rw [e2]
      exact mul_le_mul_of_nonneg_right h1 hs.le
    have eb : (10 : ℚ) ^ Int.log 10 b ≤ shown b := by
      rw [shown_eq hb]
      have h1 : (100000 : ℚ) ≤ roundHalfEven (b / 10 ^ (Int.log 10 b - 5)) := by exact_mod_cast (round_bounds hb).1
      have hs : (0 : ℚ) < 10 ^ (Int.log 10 b - 5) := zpow_pos (by norm_num) _
      have e1 : (10 : ℚ) ^ Int.log 10 b = 100000 * 10 ^ (Int.log 10 b - 5) := by
        rw [zpow_sub₀ (by norm_num)]
        norm_num
        ring
      rw [e1]
      exact mul_le_mul_of_nonneg_right h1 hs.le
    exact ea.trans ((zpow_le_zpow_right₀ (by norm_num) (by omega)).trans eb)

theorem decimal_mono {q q' : ℚ} (h : q ≤ q') : decimalValue (FP.fin q).text ≤ decimalValue (FP.fin q').text := by
  rcases lt_trichotomy q 0 with h1 | rfl | h1 <;> rcases lt_trichotomy q' 0 with h2 | rfl | h2
  · rw [decimal_text_neg h1, decimal_text_neg h2]
    exact neg_le_neg (shown_mono (neg_pos.2 h2) (neg_le_neg h))
  · rw [decimal_text_neg h1, decimal_text_zero]
    linarith [shown_pos (neg_pos.2 h1)]
  · rw [decimal_text_neg h1, decimal_text_pos h2]
    linarith [shown_pos (neg_pos.2 h1), shown_pos h2]
  · exact absurd h (not_le.2 h2)
  · exact le_rfl
  · rw [decimal_text_pos h2, decimal_text_zero]
    exact (shown_pos h2).le
  · exact absurd h (not_le.2 (h2.trans h1))
  · exact absurd h (not_le.2 h1)
  · rw [decimal_text_pos h1, decimal_text_pos h2]
    exact shown_mono h1 h

/-! ## Notation -/

theorem shown_bounds {a : ℚ} (h : 0 < a) : (10 : ℚ) ^ (sixDigits a).2 ≤ shown a ∧ shown a < 10 ^ ((sixDigits a).2 + 1) := by
  obtain ⟨h1, h2⟩ := sixDigits_bounds h
  unfold shown
  generalize (sixDigits a).2 = x
  have hs : (0 : ℚ) < 10 ^ (x - 5) := zpow_pos (by norm_num) _
  have e1 : (10 : ℚ) ^ x = 100000 * 10 ^ (x - 5) := by
    rw [zpow_sub₀ (by norm_num)]
    norm_num
    ring
  have e2 : (10 : ℚ) ^ (x + 1) = 1000000 * 10 ^ (x - 5) := by
    rw [zpow_sub₀ (by norm_num), zpow_add₀ (by norm_num)]
    norm_num
    ring
  rw [e1, e2]
  exact ⟨mul_le_mul_of_nonneg_right (by exact_mod_cast h1) hs.le,
    mul_lt_mul_of_pos_right (by exact_mod_cast h2) hs⟩

theorem positive_fixed {a : ℚ} (h : 0 < a) :
    (-4 ≤ (sixDigits a).2 ∧ (sixDigits a).2 < 6) ↔ (1 / 10000 ≤ shown a ∧ shown a < 1000000) := by
  obtain ⟨h1, h2⟩ := shown_bounds h
  have e4 : (1 / 10000 : ℚ) = 10 ^ (-4 : ℤ) := by norm_num
  have e6 : (1000000 : ℚ) = 10 ^ (6 : ℤ) := by norm_num
  rw [e4, e6]
  constructor
  · rintro ⟨h3, h4⟩
    exact ⟨(zpow_le_zpow_right₀ (by norm_num) h3).trans h1,
      h2.trans_le (zpow_le_zpow_right₀ (by norm_num) (by omega))⟩
  · rintro ⟨h3, h4⟩
    have a1 := (zpow_lt_zpow_iff_right₀ (by norm_num : (1 : ℚ) < 10)).1 (h3.trans_lt h2)
    have a2 := (zpow_lt_zpow_iff_right₀ (by norm_num : (1 : ℚ) < 10)).1 (h1.trans_lt h4)
    omega

theorem pointText_no_e {ints frac : List ℕ} (hi : ∀ d ∈ ints, d < 10) (hf : ∀ d ∈ frac, d < 10) :
    (101 : Fin 256) ∉ pointText ints frac := by
  intro h
  rcases pointText_mem hi hf h with h | ⟨d, hd, h⟩
  · exact absurd h (by decide)
  · exact (digit_ne hd).1 h.symm

theorem stripZeros_last {l : List ℕ} {d : ℕ} (h : (stripZeros l).getLast? = some d) : d ≠ 0 := by
  induction l with
  | nil => simp [stripZeros] at h
  | cons c l ih =>
    unfold stripZeros at h
    split_ifs at h with hc
    · simp at h
    · cases hs : stripZeros l with
      | nil =>
        rw [hs] at h hc
        simp at h
        subst h
        exact fun h0 => hc ⟨h0, rfl⟩
      | cons b r =>
        rw [hs, List.getLast?_cons_cons, ← hs] at h
        exact ih h

/-- a fraction has digits and ends with a nonzero one -/
theorem pointText_last {ints frac : List ℕ} (hi : ∀ d ∈ ints, d < 10) (hf : ∀ d ∈ frac, d < 10)
    (hl : ∀ d, frac.getLast? = some d → d ≠ 0) (h46 : (46 : Fin 256) ∈ pointText ints frac) :
    ∃ d, 0 < d ∧ d < 10 ∧ (pointText ints frac).getLast? = some (digitChar d) := by
  unfold pointText at h46 ⊢
  split_ifs at h46 ⊢ with h0
  · rw [List.append_nil] at h46
    obtain ⟨d, hd, h⟩ := List.mem_map.1 h46
    exact absurd h (digit_ne (hi d hd)).2.1
  · obtain ⟨d, hd⟩ : ∃ d, frac.getLast? = some d := by
      cases h : frac.getLast? with
      | none => exact absurd (List.getLast?_eq_none_iff.1 h) h0
      | some d => exact ⟨d, rfl⟩
    refine ⟨d, Nat.pos_of_ne_zero (hl d hd), hf d (List.mem_of_getLast? hd), ?_⟩
    rw [List.getLast?_append, List.getLast?_cons, List.getLast?_map, hd]
    rfl

theorem positive_e_iff {a : ℚ} (h : 0 < a) :
    (101 : Fin 256) ∈ positiveText a ↔ shown a < 1 / 10000 ∨ 1000000 ≤ shown a := by
  have hf := positive_fixed h
  have hs : ∀ m, ∀ d ∈ sixList m, d < 10 := fun m d => sixList_lt
  unfold positiveText
  dsimp only
  have hneg : (shown a < 1 / 10000 ∨ 1000000 ≤ shown a) ↔ ¬ (1 / 10000 ≤ shown a ∧ shown a < 1000000) := by
    rw [not_and_or, not_le, not_lt]
  rw [hneg, ← hf]
  split_ifs with h1 h2
  · exact ⟨fun h => absurd h (pointText_no_e (fun d hd => hs _ d (List.mem_of_mem_take hd))
      (fun d hd => hs _ d (List.mem_of_mem_drop (stripZeros_mem hd)))), fun h => absurd h1 h⟩
  · refine ⟨fun h => absurd h (pointText_no_e (by simp) ?_), fun h => absurd h1 h⟩
    intro d hd
    rcases List.mem_append.1 hd with hd | hd
    · rw [List.mem_replicate] at hd; omega
    · exact hs _ d (stripZeros_mem hd)
  · exact ⟨fun _ => h1, fun _ => by simp⟩

theorem positive_mantissa {a : ℚ} (h : 0 < a) (h46 : (46 : Fin 256) ∈ (positiveText a).takeWhile (· ≠ 101)) :
    ∃ d, 0 < d ∧ d < 10 ∧ ((positiveText a).takeWhile (· ≠ 101)).getLast? = some (digitChar d) := by
  have hs : ∀ m, ∀ d ∈ sixList m, d < 10 := fun m d => sixList_lt
  have hne : ∀ {ints frac : List ℕ}, (∀ d ∈ ints, d < 10) → (∀ d ∈ frac, d < 10) →
      ∀ x ∈ pointText ints frac, decide (x ≠ 101) = true := fun hi hf x hx =>
    decide_eq_true fun he => pointText_no_e hi hf (he ▸ hx)
  have hm := (sixDigits_bounds h).1
  unfold positiveText at h46 ⊢
  dsimp only at h46 ⊢
  split_ifs at h46 ⊢ with h1 h2
  · have hi : ∀ d ∈ List.take ((sixDigits a).2.toNat + 1) (sixList (sixDigits a).1), d < 10 :=
      fun d hd => hs _ d (List.mem_of_mem_take hd)
    have hf : ∀ d ∈ stripZeros (List.drop ((sixDigits a).2.toNat + 1) (sixList (sixDigits a).1)), d < 10 :=
      fun d hd => hs _ d (List.mem_of_mem_drop (stripZeros_mem hd))
    rw [(takeWhile_all (hne hi hf)).1] at h46 ⊢
    exact pointText_last hi hf (fun d => stripZeros_last) h46
  · have hi : ∀ d ∈ [0], d < 10 := by simp
    have hf : ∀ d ∈ List.replicate (-(sixDigits a).2 - 1).toNat 0 ++ stripZeros (sixList (sixDigits a).1), d < 10 := by
      intro d hd
      rcases List.mem_append.1 hd with hd | hd
      · rw [List.mem_replicate] at hd; omega
      · exact hs _ d (stripZeros_mem hd)
    rw [(takeWhile_all (hne hi hf)).1] at h46 ⊢
    refine pointText_last hi hf (fun d hd => ?_) h46
    rw [List.getLast?_append] at hd
    cases hl : (stripZeros (sixList (sixDigits a).1)).getLast? with
    | none =>
      exfalso
      have h0 := List.getLast?_eq_none_iff.1 hl
      have hv := stripZeros_value (sixList (sixDigits a).1)
      rw [h0, sixList_value (sixDigits_bounds h).2] at hv
      simp [listValue] at hv
      omega
    | some d' =>
      rw [hl] at hd
      have : d' = d := by simpa using hd
      exact this ▸ stripZeros_last hl
  · have hi : ∀ d ∈ List.take 1 (sixList (sixDigits a).1), d < 10 :=
      fun d hd => hs _ d (List.mem_of_mem_take hd)
    have hf : ∀ d ∈ stripZeros (List.drop 1 (sixList (sixDigits a).1)), d < 10 :=
      fun d hd => hs _ d (List.mem_of_mem_drop (stripZeros_mem hd))
    rw [(takeWhile_append_cons (hne hi hf) (by decide)).1] at h46 ⊢
    exact pointText_last hi hf (fun d => stripZeros_last) h46

end Mot
