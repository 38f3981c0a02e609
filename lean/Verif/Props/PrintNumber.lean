import Verif.Proofs.PrintText
/-!
# Printed states and objects (C105)
-/

namespace Mot.Props

open Mot Spec

/-! ## Numbers -/

/-- C105 (a): the numeral printed for a number has the number's value rounded to six significant
digits, halves to even. -/
theorem C105_number (q : ℚ) : Rounds6 q (decimalValue (FP.fin q).text) := rounds6_text q

/-- C105 (a): there is only one such value. -/
theorem C105_rounding_unique {q r r' : ℚ} (h : Rounds6 q r) (h' : Rounds6 q r') : r = r' := h.unique h'

/-- C105 (a): numerals determine the rounded value and conversely: two floating-point data print
alike exactly if they are both NaN, the same infinity, or numbers with the same rounding. -/
theorem C105_text_iff (x y : FP) : x.text = y.text ↔ LookAlike x y := text_eq_iff x y

/-- C105 (a): the relative error is at most 1 / 200000. -/
theorem C105_relative (q : ℚ) : |decimalValue (FP.fin q).text - q| ≤ |q| / 200000 := by
  rcases rounds6_text q with ⟨h0, hr⟩ | ⟨e, n, h1, h2, h3, h4, h5⟩
  · rw [hr, h0]; norm_num
  · refine h4.trans ?_
    have e1 : (10 : ℚ) ^ e = 100000 * 10 ^ (e - 5) := by
      rw [zpow_sub₀ (by norm_num)]
      norm_num
      ring
    rw [e1] at h1
    linarith

/-- C105 (a): numbers with at most six decimal digits are printed exactly. -/
theorem C105_exact (n k : ℤ) (hn : |n| < 10 ^ 6) :
    decimalValue (FP.fin (n * 10 ^ k)).text = n * 10 ^ k := by
  rcases eq_or_ne n 0 with rfl | h0
  · have : ((0 : ℤ) : ℚ) * 10 ^ k = 0 := by simp
    rw [this]
    exact decimal_text_zero
  · have key : ∀ a : ℤ, 0 < a → a < 10 ^ 6 → shown (a * 10 ^ k) = a * 10 ^ k := by
      intro a ha ha6
      have hq : (0 : ℚ) < a * 10 ^ k := mul_pos (by exact_mod_cast ha) (zpow_pos (by norm_num) _)
      rw [shown_eq hq]
      obtain ⟨h1, h2⟩ := log_bounds hq
      set e := Int.log 10 ((a : ℚ) * 10 ^ k) with he
      have hk : e ≤ k + 5 := by
        by_contra hc
        have h3 : (10 : ℚ) ^ (k + 6) ≤ 10 ^ e := zpow_le_zpow_right₀ (by norm_num) (by omega)
        have h4 : (a : ℚ) * 10 ^ k < 10 ^ (k + 6) := by
          rw [add_comm, zpow_add₀ (by norm_num)]
          refine mul_lt_mul_of_pos_right ?_ (zpow_pos (by norm_num) _)
          have : (a : ℚ) < ((10 ^ 6 : ℤ) : ℚ) := by exact_mod_cast ha6
          norm_num at this ⊢
          exact this
        linarith
      obtain ⟨j, hj⟩ := Int.eq_ofNat_of_zero_le (show 0 ≤ k + 5 - e by omega)
      have hd : (a : ℚ) * 10 ^ k / 10 ^ (e - 5) = ((a * 10 ^ j : ℤ) : ℚ) := by
        rw [mul_div_assoc, ← zpow_sub₀ (by norm_num), show k - (e - 5) = (j : ℤ) by omega, zpow_natCast]
        push_cast
        ring
      rw [hd, roundHalfEven_intCast, ← hd, div_mul_cancel₀ _ (zpow_pos (by norm_num : (0 : ℚ) < 10) _).ne']
    have hp : (0 : ℚ) < 10 ^ k := zpow_pos (by norm_num) _
    rcases lt_or_gt_of_ne h0 with hneg | hpos
    · rw [abs_of_neg hneg] at hn
      rw [decimal_text_neg (mul_neg_of_neg_of_pos (by exact_mod_cast hneg) hp)]
      have := key (-n) (by omega) hn
      push_cast at this
      rw [neg_mul] at this
      rw [this, neg_neg]
    · rw [abs_of_pos hpos] at hn
      rw [decimal_text_pos (mul_pos (by exact_mod_cast hpos) hp), key n hpos hn]

example : |(-176334 : ℤ)| < 10 ^ 6 := by decide

/-- C105 (a): order is kept. -/
theorem C105_monotone {q q' : ℚ} (h : q ≤ q') :
    decimalValue (FP.fin q).text ≤ decimalValue (FP.fin q').text := decimal_mono h

/-- C105 (a): a number is printed with an exponent exactly if its rounded value is not 0 and below
1 / 10000 or not below a million. -/
theorem C105_exponent_iff (q : ℚ) : (101 : Fin 256) ∈ (FP.fin q).text ↔
    0 < |decimalValue (FP.fin q).text| ∧ (|decimalValue (FP.fin q).text| < 1 / 10000 ∨
      1000000 ≤ |decimalValue (FP.fin q).text|) := by
  rcases lt_trichotomy q 0 with h | rfl | h
  · have hp := shown_pos (neg_pos.2 h)
    rw [decimal_text_neg h, abs_neg, abs_of_pos hp, ← positive_e_iff (neg_pos.2 h)]
    unfold FP.text
    dsimp only
    rw [if_neg h.ne, if_pos h, List.mem_cons]
    exact ⟨fun hc => ⟨hp, hc.resolve_left (by decide)⟩, fun hc => .inr hc.2⟩
  · have : (FP.fin 0).text = ascii "0" := by
      unfold FP.text
      dsimp only
      rw [if_pos rfl]
    rw [decimal_text_zero, this, abs_zero]
    exact ⟨fun hc => absurd hc (by decide), fun hc => absurd hc.1 (lt_irrefl _)⟩
  · have hp := shown_pos h
    rw [decimal_text_pos h, abs_of_pos hp, ← positive_e_iff h]
    unfold FP.text
    dsimp only
    rw [if_neg h.ne', if_neg (not_lt.2 h.le)]
    exact ⟨fun hc => ⟨hp, hc⟩, fun hc => hc.2⟩

/-- C105 (a): if there is a point, digits follow, and the last is not 0. -/
theorem C105_no_trailing_zero (q : ℚ) (h : (46 : Fin 256) ∈ (FP.fin q).text.takeWhile (· ≠ 101)) :
    ∃ d, 0 < d ∧ d < 10 ∧ ((FP.fin q).text.takeWhile (· ≠ 101)).getLast? = some (Fin.ofNat 256 (48 + d)) := by
  rcases lt_trichotomy q 0 with hq | rfl | hq
  · have ht : (FP.fin q).text = 45 :: positiveText (-q) := by
      unfold FP.text
      dsimp only
      rw [if_neg hq.ne, if_pos hq]
    have e : (45 :: positiveText (-q)).takeWhile (· ≠ 101) = 45 :: (positiveText (-q)).takeWhile (· ≠ 101) :=
      List.takeWhile_cons_of_pos (by decide)
    rw [ht, e] at h ⊢
    have h46 := (List.mem_cons.1 h).resolve_left (by decide)
    obtain ⟨d, h1, h2, h3⟩ := positive_mantissa (neg_pos.2 hq) h46
    refine ⟨d, h1, h2, ?_⟩
    rw [List.getLast?_cons, h3]
    rfl
  · have : (FP.fin 0).text = ascii "0" := by
      unfold FP.text
      dsimp only
      rw [if_pos rfl]
    rw [this] at h
    exact absurd h (by decide)
  · have ht : (FP.fin q).text = positiveText q := by
      unfold FP.text
      dsimp only
      rw [if_neg hq.ne', if_neg (not_lt.2 hq.le)]
    rw [ht] at h ⊢
    exact positive_mantissa hq h

/-- C105 (b): numbers of one decade that are less than half a unit of the sixth digit away from the
same multiple of that unit print alike. -/
theorem C105_coarse {e n : ℤ} {q q' : ℚ} (h1 : 10 ^ e ≤ |q| ∧ |q| < 10 ^ (e + 1))
    (h1' : 10 ^ e ≤ |q'| ∧ |q'| < 10 ^ (e + 1)) (h2 : |(n : ℚ) * 10 ^ (e - 5) - q| < 10 ^ (e - 5) / 2)
    (h2' : |(n : ℚ) * 10 ^ (e - 5) - q'| < 10 ^ (e - 5) / 2) : (FP.fin q).text = (FP.fin q').text :=
  (text_eq_iff _ _).2 ⟨n * 10 ^ (e - 5), .inr ⟨e, n, h1.1, h1.2, rfl, h2.le, fun h => absurd h h2.ne⟩,
    .inr ⟨e, n, h1'.1, h1'.2, rfl, h2'.le, fun h => absurd h h2'.ne⟩⟩

/-- C105 (b), witness: two points of time in November 2025, in seconds since 1970, that are more
than two hours apart print alike. -/
theorem C105_coarse_timestamps : (FP.fin 1763336000).text = (FP.fin 1763344000).text :=
  C105_coarse (e := 9) (n := 176334) (by norm_num [abs_of_pos]) (by norm_num [abs_of_pos])
    (by norm_num [abs_of_pos, abs_of_neg]) (by norm_num [abs_of_pos, abs_of_neg])

/-- C105 (b): the text that is printed for both, 1.76334e+09. -/
theorem C105_coarse_text : decimalValue (FP.fin 1763336000).text = 1763340000 ∧
    decimalValue (ascii "1.76334e+09") = 1763340000 := by
  constructor
  · refine (C105_rounding_unique (rounds6_text 1763336000) (.inr ⟨9, 176334, ?_, ?_, ?_, ?_, ?_⟩)).trans rfl
    · norm_num [abs_of_pos]
    · norm_num [abs_of_pos]
    · norm_num
    · norm_num
    · norm_num
  · decide +kernel

/-! ## Matrices -/

/-- cut a list with one separator between pieces of equal length into the pieces -/
private theorem slice_intercalate {α : Type} (s : α) (w : ℕ) :
    ∀ (l : List (List α)), (∀ t ∈ l, t.length = w) → ∀ (j : ℕ) (h : j < l.length),
      (([s].intercalate l).drop (j * (w + 1))).take w = l[j]
  | [], _, j, h => absurd h (Nat.not_lt_zero _)
  | [t], ht, j, h => by
    have : j = 0 := by simpa using h
    subst this
    simp [← ht t (by simp)]
  | t :: t' :: l, ht, 0, h => by
    simp [List.intercalate_cons_cons, ← ht t (by simp)]
  | t :: t' :: l, ht, j + 1, h => by
    have e : (j + 1) * (w + 1) = (t ++ [s]).length + j * (w + 1) := by
      rw [List.length_append, ht t (by simp), List.length_singleton]; ring
    rw [List.intercalate_cons_cons, e, List.drop_append, List.drop_of_length_le (by omega),
      Nat.add_sub_cancel_left, List.nil_append]
    exact slice_intercalate s w (t' :: l) (fun x hx => ht x (List.mem_cons_of_mem _ hx)) j
      (by simpa using h)

private theorem length_intercalate {α : Type} (s : α) (w : ℕ) :
    ∀ (l : List (List α)), (∀ t ∈ l, t.length = w) → l ≠ [] →
      ([s].intercalate l).length + 1 = l.length * (w + 1)
  | [], _, h => absurd rfl h
  | [t], ht, _ => by simp [ht t (by simp)]
  | t :: t' :: l, ht, _ => by
    have := length_intercalate s w (t' :: l) (fun x hx => ht x (List.mem_cons_of_mem _ hx)) (by simp)
    rw [List.intercalate_cons_cons, List.length_append, List.length_append, ht t (by simp),
      List.length_singleton]
    rw [List.length_cons] at this ⊢
    rw [Nat.add_assoc, this, List.length_cons]
    ring

private theorem matrixWidth_spec {n : ℕ} (M : Fin (n + 1) → Fin (n + 1) → FP) :
    (∀ i j, (M i j).text.length ≤ matrixWidth M) ∧ ∃ i j, (M i j).text.length = matrixWidth M := by
  have key : ∀ l : List ℕ, (∀ x ∈ l, x ≤ l.foldr max 0) ∧ (l ≠ [] → l.foldr max 0 ∈ l) := by
    intro l
    induction l with
    | nil => simp
    | cons a l ih =>
      refine ⟨fun x hx => ?_, fun _ => ?_⟩
      · rcases List.mem_cons.1 hx with rfl | hx
        · exact le_max_left _ _
        · exact (ih.1 x hx).trans (le_max_right _ _)
      · rw [List.foldr_cons]
        rcases le_total a (l.foldr max 0) with h | h
        · rw [max_eq_right h]
          rcases eq_or_ne l [] with rfl | hl
          · simp at h
            simp [h]
          · exact List.mem_cons_of_mem _ (ih.2 hl)
        · rw [max_eq_left h]
          exact List.mem_cons_self
  obtain ⟨h1, h2⟩ := key ((List.finRange (n + 1)).flatMap fun i =>
    (List.finRange (n + 1)).map fun j => (M i j).text.length)
  constructor
  · intro i j
    refine h1 _ ?_
    simp only [List.mem_flatMap, List.mem_map, List.mem_finRange, true_and]
    exact ⟨i, j, rfl⟩
  · have := h2 (List.ne_nil_of_mem (a := (M 0 0).text.length) (by
      simp only [List.mem_flatMap, List.mem_map, List.mem_finRange, true_and]
      exact ⟨0, 0, rfl⟩))
    simp only [List.mem_flatMap, List.mem_map, List.mem_finRange, true_and] at this
    exact this

/-- C105 (c): a printed covariance is a table: the lines have the same length, and the columns the
width of the longest number of the matrix, one space between them, numbers flush right. -/
theorem C105_columns {n : ℕ} (M : Fin (n + 1) → Fin (n + 1) → FP) :
    ∃ (w : ℕ) (line : Fin (n + 1) → Text),
      IsGreatest {k | ∃ i j, (M i j).text.length = k} w ∧
      printMatrix M = [newline].intercalate (List.ofFn line) ∧
      (∀ i, (line i).length + 1 = (n + 1) * (w + 1)) ∧
      ∀ i j, ∃ k, ((line i).drop (j.1 * (w + 1))).take w = List.replicate k space ++ (M i j).text := by
  obtain ⟨h1, i₀, j₀, h2⟩ := matrixWidth_spec M
  have hl : ∀ i, ∀ t ∈ (List.finRange (n + 1)).map fun j => padText (matrixWidth M) (M i j).text,
      t.length = matrixWidth M := by
    intro i t ht
    obtain ⟨j, -, rfl⟩ := List.mem_map.1 ht
    have := h1 i j
    unfold padText
    rw [List.length_append, List.length_replicate]
    omega
  refine ⟨matrixWidth M, fun i => (ascii " ").intercalate ((List.finRange (n + 1)).map fun j =>
    padText (matrixWidth M) (M i j).text), ⟨⟨i₀, j₀, h2⟩, ?_⟩, ?_, fun i => ?_, fun i j => ?_⟩
  · rintro k ⟨i, j, rfl⟩
    exact h1 i j
  · unfold printMatrix
    rw [List.ofFn_eq_map]
    rfl
  · have := length_intercalate (32 : Fin 256) (matrixWidth M) _ (hl i) (by simp [List.finRange_succ])
    rw [List.length_map, List.length_finRange] at this
    exact this
  · have := slice_intercalate (32 : Fin 256) (matrixWidth M) _ (hl i) j.1 (by simpa using j.is_le)
    refine ⟨matrixWidth M - (M i j).text.length, this.trans ?_⟩
    simp [padText]

/-! ## Objects -/

section
variable {unit : UnitText} {m : Libm}

/-- C105 (c): two objects print alike exactly if they have the same motion model, the same UUID,
and numbers (time, position, speed, heading angle, yaw rate, acceleration, covariance) that print
alike.  The UUIDs are arbitrary. -/
theorem C105_object_iff (hu : IsUnitText unit) (o o' : EntityF (CtrvStateF m) 5 ⊕ EntityF (CtraStateF m) 6) :
    printVariant unit o = printVariant unit o' ↔ LookAlikeVariants o o' := by
  cases o with
  | inl o =>
    cases o' with
    | inl o' =>
      exact ⟨printEntity_inj hu (states := LookAlikeCtrv) (ctrv_print_inj hu) (ctrv_print_count hu),
        printEntity_congr (printState := CtrvStateF.print unit) (states := LookAlikeCtrv) ctrv_print_congr⟩
    | inr o' => exact ⟨fun h => (printEntity_ne hu o o' h).elim, fun h => h.elim⟩
  | inr o =>
    cases o' with
    | inl o' => exact ⟨fun h => (printEntity_ne hu o' o h.symm).elim, fun h => h.elim⟩
    | inr o' =>
      exact ⟨printEntity_inj hu (states := LookAlikeCtra) (ctra_print_inj hu) (ctra_print_count hu),
        printEntity_congr (printState := CtraStateF.print unit) (states := LookAlikeCtra) ctra_print_congr⟩

/-- C105 (c): states of the same motion model print alike exactly if their numbers do; states of
different motion models never do. -/
theorem C105_state_iff (hu : IsUnitText unit) (s s' : CtrvStateF m) (z z' : CtraStateF m) :
    (s.print unit = s'.print unit ↔ LookAlikeCtrv s s') ∧ (z.print unit = z'.print unit ↔ LookAlikeCtra z z') ∧
      s.print unit ≠ z.print unit := by
  refine ⟨⟨fun h => (ctrv_print_inj hu (r := []) (r' := []) (by rw [h])).1, ctrv_print_congr⟩,
    ⟨fun h => (ctra_print_inj hu (r := []) (r' := []) (by rw [h])).1, ctra_print_congr⟩, fun h => ?_⟩
  have h1 := ctrv_print_count hu s
  rw [h, ctra_print_count hu z] at h1
  omega

/-- C105 (d): the semantic class is not printed. -/
theorem C105_class (o : EntityF (CtrvStateF m) 5) (z : EntityF (CtraStateF m) 6) (c : SemanticClass) :
    printVariant unit (.inl { o with semanticClass := c }) = printVariant unit (.inl o) ∧
      printVariant unit (.inr { z with semanticClass := c }) = printVariant unit (.inr z) := ⟨rfl, rfl⟩

/-! ## Sequences of objects -/

/-- C105 (e): if no UUID contains a newline, the report of a sequence of objects determines their
number and order and what is printed of each. -/
theorem C105_container_iff (hu : IsUnitText unit) (os os' : List (EntityF (CtrvStateF m) 5 ⊕ EntityF (CtraStateF m) 6))
    (hn : ∀ o ∈ os, newline ∉ (variantUuid o).value) (hn' : ∀ o ∈ os', newline ∉ (variantUuid o).value) :
    printContainer unit os = printContainer unit os' ↔ List.Forall₂ LookAlikeVariants os os' := by
  constructor
  · intro h
    unfold printContainer at h
    have hne : ∀ (o : EntityF (CtrvStateF m) 5 ⊕ EntityF (CtraStateF m) 6) (r : Text),
        [] ≠ printVariant unit o ++ r := by
      intro o r hc
      have := congrArg List.length hc
      cases o <;> simp only [printVariant, printEntity, endl, List.length_append, List.length_nil,
        List.length_cons] at this <;> omega
    induction os generalizing os' with
    | nil =>
      cases os' with
      | nil => exact .nil
      | cons o' os' => exact absurd h (by rw [List.flatMap_cons]; exact hne o' _)
    | cons o os ih =>
      cases os' with
      | nil => exact absurd h.symm (by rw [List.flatMap_cons]; exact hne o _)
      | cons o' os' =>
        rw [List.flatMap_cons, List.flatMap_cons] at h
        have h1 := hn o (by simp)
        have h1' := hn' o' (by simp)
        have key : LookAlikeVariants o o' ∧ os.flatMap (printVariant unit) = os'.flatMap (printVariant unit) := by
          cases o with
          | inl o =>
            cases o' with
            | inl o' =>
              simp only [printVariant] at h
              exact printEntity_prefix hu (states := LookAlikeCtrv) (ctrv_print_inj hu) h1 h1' h
            | inr o' =>
              simp only [printVariant] at h
              exact (printEntity_prefix_ne hu h1 h1' h).elim
          | inr o =>
            cases o' with
            | inl o' =>
              simp only [printVariant] at h
              exact (printEntity_prefix_ne hu h1' h1 h.symm).elim
            | inr o' =>
              simp only [printVariant] at h
              exact printEntity_prefix hu (states := LookAlikeCtra) (ctra_print_inj hu) h1 h1' h
        exact .cons key.1 (ih os' (fun x hx => hn x (by simp [hx])) (fun x hx => hn' x (by simp [hx])) key.2)
  · intro h
    unfold printContainer
    induction h with
    | nil => rfl
    | cons h _ ih =>
      rw [List.flatMap_cons, List.flatMap_cons, (C105_object_iff hu _ _).2 h,
        ih (fun x hx => hn x (by simp [hx])) (fun x hx => hn' x (by simp [hx]))]

/-- C105 (f): a UUID with newlines can forge objects: for every two objects there is one that
prints like the two. -/
theorem C105_forged (o₁ o₂ : EntityF (CtrvStateF m) 5 ⊕ EntityF (CtraStateF m) 6) :
    ∃ o : EntityF (CtrvStateF m) 5 ⊕ EntityF (CtraStateF m) 6,
      printContainer unit [o] = printContainer unit [o₁, o₂] := by
  have key : ∀ {S₁ S₂ : Type} {n₁ n₂ : ℕ} (p₁ : S₁ → Text) (p₂ : S₂ → Text) (a : EntityF S₁ n₁) (b : EntityF S₂ n₂),
      ∃ o : EntityF S₂ n₂, printEntity unit p₂ o = printEntity unit p₁ a ++ printEntity unit p₂ b := by
    intro S₁ S₂ n₁ n₂ p₁ p₂ a b
    refine ⟨{ b with
      timestamp := a.timestamp
      uuid := ⟨a.uuid.value ++ newline :: bodyText p₁ a ++
        (printLine unit "Timestamp: " b.timestamp .time ++ (ascii "UUID: " ++ b.uuid.value))⟩ }, ?_⟩
    rw [printEntity_eq, printEntity_eq, printEntity_eq]
    have hb : bodyText p₂ { b with
      timestamp := a.timestamp
      uuid := ⟨a.uuid.value ++ newline :: bodyText p₁ a ++
        (printLine unit "Timestamp: " b.timestamp .time ++ (ascii "UUID: " ++ b.uuid.value))⟩ } = bodyText p₂ b := rfl
    rw [hb]
    simp only [List.append_assoc, List.cons_append]
  unfold printContainer
  simp only [List.flatMap_cons, List.flatMap_nil, List.append_nil]
  cases o₁ with
  | inl a =>
    cases o₂ with
    | inl b =>
      obtain ⟨o, h⟩ := key (CtrvStateF.print unit) (CtrvStateF.print unit) a b
      exact ⟨.inl o, h⟩
    | inr b =>
      obtain ⟨o, h⟩ := key (CtrvStateF.print unit) (CtraStateF.print unit) a b
      exact ⟨.inr o, h⟩
  | inr a =>
    cases o₂ with
    | inl b =>
      obtain ⟨o, h⟩ := key (CtraStateF.print unit) (CtrvStateF.print unit) a b
      exact ⟨.inl o, h⟩
    | inr b =>
      obtain ⟨o, h⟩ := key (CtraStateF.print unit) (CtraStateF.print unit) a b
      exact ⟨.inr o, h⟩

end

/-! ## Examples -/

/-- the texts that the `units` library writes -/
def plainUnits : UnitText
  | .length => ascii " m"
  | .speed => ascii " mps"
  | .angle => ascii " rad"
  | .rate => ascii " rad_per_s"
  | .acceleration => ascii " mps_sq"
  | .time => ascii " s"

example : IsUnitText plainUnits := by
  intro u
  cases u <;> exact ⟨by decide, _, rfl⟩

/-- an object whose report is shown below -/
def printedObject (c : FP) : EntityF (CtrvStateF ⟨FP, id, id, id, id⟩) 5 where
  timestamp := .fin 0
  state := ⟨.fin 0, .nan, .inf true, .fin 0, .inf false⟩
  covariance := fun i j => if i = j then c else .fin 0
  uuid := ⟨ascii "t1"⟩
  semanticClass := .unknown

/-- numerals -/
example : (FP.fin (1 / 10)).text = ascii "0.1" ∧ (FP.fin (-1234567)).text = ascii "-1.23457e+06" ∧
    (FP.fin (123456)).text = ascii "123456" ∧ (FP.fin (9999995 / 10)).text = ascii "1e+06" ∧
    (FP.fin (1 / 20000)).text = ascii "5e-05" ∧ (FP.fin (1 / 10000)).text = ascii "0.0001" ∧
    (FP.fin (6283 / 1000)).text = ascii "6.283" ∧ (FP.fin (10 ^ 300)).text = ascii "1e+300" ∧
    (FP.fin (1000005 / 10)).text = ascii "100000" ∧ (FP.fin (1000015 / 10)).text = ascii "100002" := by
  decide +kernel

/-- the text of the points of time -/
example : (FP.fin 1763336000).text = ascii "1.76334e+09" := by decide +kernel

/-- columns are aligned -/
example : printMatrix (printedObject .nan).covariance =
    ascii "nan   0   0   0   0\n  0 nan   0   0   0\n  0   0 nan   0   0\n  0   0   0 nan   0\n  0   0   0   0 nan" := by
  decide +kernel

/-- two objects of which the report shows the same although they differ -/
example : printVariant plainUnits (.inl (printedObject (.fin 1763336000))) =
    printVariant plainUnits (.inl (printedObject (.fin 1763344000))) := by
  refine (C105_object_iff ?_ _ _).2 ⟨?_, rfl, ⟨?_, ?_, ?_, ?_, ?_⟩, fun i j => ?_⟩
  · intro u
    cases u <;> exact ⟨by decide, _, rfl⟩
  · exact (C105_text_iff _ _).1 rfl
  · exact (C105_text_iff _ _).1 rfl
  · trivial
  · exact rfl
  · exact (C105_text_iff _ _).1 rfl
  · exact rfl
  · unfold printedObject
    dsimp only
    split_ifs
    · exact (C105_text_iff _ _).1 C105_coarse_timestamps
    · exact (C105_text_iff _ _).1 rfl

/-- the hypothesis on UUIDs is met -/
example : ∀ o ∈ ([.inl (printedObject .nan), .inl (printedObject (.fin 2))] :
    List (EntityF (CtrvStateF ⟨FP, id, id, id, id⟩) 5 ⊕ EntityF (CtraStateF ⟨FP, id, id, id, id⟩) 6)),
    newline ∉ (variantUuid o).value := by
  intro o ho
  simp only [List.mem_cons, List.not_mem_nil, or_false] at ho
  rcases ho with rfl | rfl
  · show newline ∉ ascii "t1"
    decide
  · show newline ∉ ascii "t1"
    decide

end Mot.Props
