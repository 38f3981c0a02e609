import Verif.Proofs.PrintNumber
/-!
# Lemmas on printed objects
-/

namespace Mot

open Spec

theorem split_at_char {x : Fin 256} {u v r r' : Text} (hu : x ∉ u) (hv : x ∉ v)
    (h : u ++ x :: r = v ++ x :: r') : u = v ∧ r = r' := by
  induction u generalizing v with
  | nil =>
    cases v with
    | nil => simpa using h
    | cons b v =>
      simp only [List.nil_append, List.cons_append, List.cons.injEq] at h
      exact absurd (by simp [h.1]) hv
  | cons a u ih =>
    cases v with
    | nil =>
      simp only [List.nil_append, List.cons_append, List.cons.injEq] at h
      exact absurd (by simp [h.1]) hu
    | cons b v =>
      simp only [List.cons_append, List.cons.injEq] at h
      obtain ⟨h1, h2⟩ := ih (fun hc => hu (by simp [hc])) (fun hc => hv (by simp [hc])) h.2
      exact ⟨by rw [h.1, h1], h2⟩

/-- text that ends with a newline and lines, split by counting newlines from the end -/
theorem split_from_end {u u' p p' : Text} (hc : p.count newline = p'.count newline)
    (h : u ++ newline :: p = u' ++ newline :: p') : u = u' ∧ p = p' := by
  rcases List.append_eq_append_iff.1 h with ⟨s, h1, h2⟩ | ⟨s, h1, h2⟩
  · cases s with
    | nil => exact ⟨by simpa using h1.symm, by simpa using h2⟩
    | cons c s =>
      simp only [List.cons_append, List.cons.injEq] at h2
      have := congrArg (List.count newline) h2.2
      rw [List.count_append, List.count_cons_self] at this
      omega
  · cases s with
    | nil => exact ⟨by simpa using h1, by simpa using h2.symm⟩
    | cons c s =>
      simp only [List.cons_append, List.cons.injEq] at h2
      have := congrArg (List.count newline) h2.2
      rw [List.count_append, List.count_cons_self] at this
      omega

section
variable {unit : UnitText} {m : Libm}

/-- a line with a number is a prefix code -/
theorem printLine_inj (hu : IsUnitText unit) {l : String} {x y : FP} {u : PrintUnit} {r r' : Text}
    (h : printLine unit l x u ++ r = printLine unit l y u ++ r') : x.text = y.text ∧ r = r' := by
  obtain ⟨-, t, ht⟩ := hu u
  unfold printLine at h
  simp only [List.append_assoc, ht, List.cons_append, List.append_cancel_left_eq] at h
  obtain ⟨h1, h2⟩ := split_at_char x.text_plain.2.1 y.text_plain.2.1 h
  exact ⟨h1, by simpa using h2⟩

theorem printLine_count (hu : IsUnitText unit) {l : String} (hl : newline ∉ ascii l) (x : FP) (u : PrintUnit) :
    (printLine unit l x u).count newline = 1 := by
  unfold printLine endl
  rw [List.count_append, List.count_append, List.count_append, List.count_eq_zero_of_not_mem hl,
    List.count_eq_zero_of_not_mem x.text_plain.2.2, List.count_eq_zero_of_not_mem (hu u).1]
  rfl

/-- a line with a number, without its end -/
theorem printLine_line (hu : IsUnitText unit) {l : String} (hl : newline ∉ ascii l) (x : FP) (u : PrintUnit) :
    ∃ t, newline ∉ t ∧ printLine unit l x u = t ++ [newline] :=
  ⟨ascii l ++ x.text ++ unit u, by
    rw [List.mem_append, List.mem_append, not_or, not_or]
    exact ⟨⟨hl, x.text_plain.2.2⟩, (hu u).1⟩, rfl⟩

theorem ctrv_print_inj (hu : IsUnitText unit) {s s' : CtrvStateF m} {r r' : Text}
    (h : s.print unit ++ r = s'.print unit ++ r') : LookAlikeCtrv s s' ∧ r = r' := by
  unfold CtrvStateF.print at h
  simp only [List.append_assoc, List.append_cancel_left_eq] at h
  obtain ⟨h1, h⟩ := printLine_inj hu h
  obtain ⟨h2, h⟩ := printLine_inj hu h
  obtain ⟨h3, h⟩ := printLine_inj hu h
  obtain ⟨h4, h⟩ := printLine_inj hu h
  obtain ⟨h5, h⟩ := printLine_inj hu h
  exact ⟨⟨(text_eq_iff _ _).1 h1, (text_eq_iff _ _).1 h2, (text_eq_iff _ _).1 h3, (text_eq_iff _ _).1 h4,
    (text_eq_iff _ _).1 h5⟩, h⟩

theorem ctra_print_inj (hu : IsUnitText unit) {s s' : CtraStateF m} {r r' : Text}
    (h : s.print unit ++ r = s'.print unit ++ r') : LookAlikeCtra s s' ∧ r = r' := by
  unfold CtraStateF.print at h
  simp only [List.append_assoc, List.append_cancel_left_eq] at h
  obtain ⟨h1, h⟩ := printLine_inj hu h
  obtain ⟨h2, h⟩ := printLine_inj hu h
  obtain ⟨h3, h⟩ := printLine_inj hu h
  obtain ⟨h4, h⟩ := printLine_inj hu h
  obtain ⟨h5, h⟩ := printLine_inj hu h
  obtain ⟨h6, h⟩ := printLine_inj hu h
  exact ⟨⟨(text_eq_iff _ _).1 h1, (text_eq_iff _ _).1 h2, (text_eq_iff _ _).1 h3, (text_eq_iff _ _).1 h4,
    (text_eq_iff _ _).1 h5, (text_eq_iff _ _).1 h6⟩, h⟩

theorem ctrv_print_congr {s s' : CtrvStateF m} (h : LookAlikeCtrv s s') : s.print unit = s'.print unit := by
  obtain ⟨h1, h2, h3, h4, h5⟩ := h
  unfold CtrvStateF.print printLine
  rw [(text_eq_iff _ _).2 h1, (text_eq_iff _ _).2 h2, (text_eq_iff _ _).2 h3, (text_eq_iff _ _).2 h4,
    (text_eq_iff _ _).2 h5]

theorem ctra_print_congr {s s' : CtraStateF m} (h : LookAlikeCtra s s') : s.print unit = s'.print unit := by
  obtain ⟨h1, h2, h3, h4, h5, h6⟩ := h
  unfold CtraStateF.print printLine
  rw [(text_eq_iff _ _).2 h1, (text_eq_iff _ _).2 h2, (text_eq_iff _ _).2 h3, (text_eq_iff _ _).2 h4,
    (text_eq_iff _ _).2 h5, (text_eq_iff _ _).2 h6]

theorem ctrv_print_count (hu : IsUnitText unit) (s : CtrvStateF m) : (s.print unit).count newline = 6 := by
  unfold CtrvStateF.print
  simp only [List.count_append]
  rw [printLine_count hu (by decide), printLine_count hu (by decide), printLine_count hu (by decide),
    printLine_count hu (by decide), printLine_count hu (by decide)]
  decide

theorem ctra_print_count (hu : IsUnitText unit) (s : CtraStateF m) : (s.print unit).count newline = 7 := by
  unfold CtraStateF.print
  simp only [List.count_append]
  rw [printLine_count hu (by decide), printLine_count hu (by decide), printLine_count hu (by decide),
    printLine_count hu (by decide), printLine_count hu (by decide), printLine_count hu (by decide)]
  decide

/-! ## Matrices -/

/-- a word: not empty, without space and newline -/
def Word (t : Text) : Prop := t ≠ [] ∧ space ∉ t ∧ newline ∉ t

theorem word_text (x : FP) : Word x.text := x.text_plain

/-- a padded word is a prefix code, up to the padding -/
theorem padText_inj {w w' : ℕ} {t t' r r' : Text} {c c' : Fin 256} (ht : Word t) (ht' : Word t')
    (hc : c = space ∨ c = newline) (hc' : c' = space ∨ c' = newline)
    (h : padText w t ++ c :: r = padText w' t' ++ c' :: r') : t = t' ∧ c :: r = c' :: r' := by
  have drop : ∀ {w : ℕ} {t r : Text} {c : Fin 256}, Word t →
      (padText w t ++ c :: r).dropWhile (· = space) = t ++ c :: r := by
    intro w t r c ht
    unfold padText
    rw [List.append_assoc, List.dropWhile_append_of_pos (by
      intro x hx
      rw [List.mem_replicate] at hx
      exact decide_eq_true hx.2)]
    cases t with
    | nil => exact absurd rfl ht.1
    | cons a t =>
      have : a ≠ space := fun h => ht.2.1 (by simp [h])
      simp [this]
  have e := congrArg (List.dropWhile (· = space)) h
  rw [drop ht, drop ht'] at e
  have take : ∀ {t r : Text} {c : Fin 256}, Word t → (c = space ∨ c = newline) →
      (t ++ c :: r).takeWhile (fun x => x ≠ space ∧ x ≠ newline) = t ∧
        (t ++ c :: r).dropWhile (fun x => x ≠ space ∧ x ≠ newline) = c :: r := by
    intro t r c ht hc
    refine takeWhile_append_cons ?_ ?_
    · intro x hx
      exact decide_eq_true ⟨fun h => ht.2.1 (h ▸ hx), fun h => ht.2.2 (h ▸ hx)⟩
    · rcases hc with rfl | rfl <;> decide
  have e1 := congrArg (List.takeWhile (fun x => decide (x ≠ space ∧ x ≠ newline))) e
  have e2 := congrArg (List.dropWhile (fun x => decide (x ≠ space ∧ x ≠ newline))) e
  rw [(take ht hc).1, (take ht' hc').1] at e1
  rw [(take ht hc).2, (take ht' hc').2] at e2
  exact ⟨e1, e2⟩

/-- a row -/
def rowText (w : ℕ) (ts : List Text) : Text := (ascii " ").intercalate (ts.map (padText w))

theorem intercalate_cons_cons' (s a b : Text) (l : List Text) :
    s.intercalate (a :: b :: l) = a ++ s ++ s.intercalate (b :: l) := by
  simp [List.intercalate, List.intersperse]

theorem intercalate_single (s a : Text) : s.intercalate [a] = a := by
  simp [List.intercalate]

theorem rowText_inj {w w' : ℕ} {ts ts' : List Text} {r r' : Text} (hl : ts.length = ts'.length)
    (h : ∀ t ∈ ts, Word t) (h' : ∀ t ∈ ts', Word t)
    (he : rowText w ts ++ newline :: r = rowText w' ts' ++ newline :: r') : ts = ts' ∧ r = r' := by
  have hsp : ascii " " = [space] := by decide
  induction ts generalizing ts' with
  | nil =>
    cases ts' with
    | nil => exact ⟨rfl, by simpa [rowText] using he⟩
    | cons t' ts' => simp at hl
  | cons t ts ih =>
    cases ts' with
    | nil => simp at hl
    | cons t' ts' =>
      cases ts with
      | nil =>
        cases ts' with
        | nil =>
          unfold rowText at he
          simp only [List.map_cons, List.map_nil, intercalate_single] at he
          obtain ⟨h1, h2⟩ := padText_inj (h t (by simp)) (h' t' (by simp)) (.inr rfl) (.inr rfl) he
          exact ⟨by rw [h1], (List.cons.inj h2).2⟩
        | cons t₂' ts' => simp at hl
      | cons t₂ ts =>
        cases ts' with
        | nil => simp at hl
        | cons t₂' ts' =>
          unfold rowText at he
          simp only [List.map_cons, intercalate_cons_cons', hsp, List.append_assoc, List.cons_append,
            List.nil_append] at he
          obtain ⟨h1, h2⟩ := padText_inj (h t (by simp)) (h' t' (by simp)) (.inl rfl) (.inl rfl) he
          obtain ⟨h3, h4⟩ := ih (ts' := t₂' :: ts') (by simpa using hl) (fun x hx => h x (by simp [hx]))
            (fun x hx => h' x (by simp [hx])) (by
              unfold rowText
              simp only [List.map_cons, hsp]
              exact (List.cons.inj h2).2)
          exact ⟨by rw [h1, h3], h4⟩

theorem rowText_newline {w : ℕ} {ts : List Text} (h : ∀ t ∈ ts, Word t) : newline ∉ rowText w ts := by
  have hp : ∀ t ∈ ts, newline ∉ padText w t := by
    intro t ht
    unfold padText
    rw [List.mem_append, not_or]
    refine ⟨fun hc => ?_, (h t ht).2.2⟩
    rw [List.mem_replicate] at hc
    exact absurd hc.2 (by decide)
  unfold rowText
  induction ts with
  | nil => simp
  | cons t ts ih =>
    cases ts with
    | nil =>
      simp only [List.map_cons, List.map_nil, intercalate_single]
      exact hp t (by simp)
    | cons t₂ ts =>
      simp only [List.map_cons, intercalate_cons_cons']
      rw [List.mem_append, List.mem_append, not_or, not_or]
      refine ⟨⟨hp t (by simp), by decide⟩, ?_⟩
      exact ih (fun x hx => h x (by simp [hx])) (fun x hx => hp x (by simp [hx]))

/-- the rows -/
def rowsText (w : ℕ) (tss : List (List Text)) : Text := endl.intercalate (tss.map (rowText w))

theorem rowsText_inj {w w' : ℕ} {tss tss' : List (List Text)} {r r' : Text} {n : ℕ} (hl : tss.length = tss'.length)
    (h : ∀ ts ∈ tss, ts.length = n ∧ ∀ t ∈ ts, Word t) (h' : ∀ ts ∈ tss', ts.length = n ∧ ∀ t ∈ ts, Word t)
    (he : rowsText w tss ++ newline :: r = rowsText w' tss' ++ newline :: r') : tss = tss' ∧ r = r' := by
  induction tss generalizing tss' with
  | nil =>
    cases tss' with
    | nil => exact ⟨rfl, by simpa [rowsText] using he⟩
    | cons t' ts' => simp at hl
  | cons t ts ih =>
    cases ts' : tss' with
    | nil => rw [ts'] at hl; simp at hl
    | cons t' ts' =>
      subst tss'
      obtain ⟨n1, w1⟩ := h t (by simp)
      obtain ⟨n1', w1'⟩ := h' t' (by simp)
      cases ts with
      | nil =>
        cases ts' with
        | nil =>
          unfold rowsText at he
          simp only [List.map_cons, List.map_nil, intercalate_single] at he
          obtain ⟨h1, h2⟩ := rowText_inj (n1.trans n1'.symm) w1 w1' he
          exact ⟨by rw [h1], h2⟩
        | cons t₂' ts' => simp at hl
      | cons t₂ ts =>
        cases ts' with
        | nil => simp at hl
        | cons t₂' ts' =>
          unfold rowsText at he
          simp only [List.map_cons, intercalate_cons_cons', endl, List.append_assoc, List.cons_append,
            List.nil_append] at he
          obtain ⟨h1, h2⟩ := rowText_inj (n1.trans n1'.symm) w1 w1' he
          obtain ⟨h3, h4⟩ := ih (tss' := t₂' :: ts') (by simpa using hl) (fun x hx => h x (by simp [hx]))
            (fun x hx => h' x (by simp [hx])) (by
              unfold rowsText
              simp only [List.map_cons, endl]
              exact h2)
          exact ⟨by rw [h1, h3], h4⟩

theorem rowsText_count {w : ℕ} {tss : List (List Text)} (h : ∀ ts ∈ tss, ∀ t ∈ ts, Word t) :
    (rowsText w tss).count newline = tss.length - 1 := by
  unfold rowsText
  induction tss with
  | nil => simp
  | cons t ts ih =>
    have h0 := List.count_eq_zero_of_not_mem (rowText_newline (w := w) (h t (by simp)))
    cases ts with
    | nil =>
      simp only [List.map_cons, List.map_nil, intercalate_single]
      rw [h0]; rfl
    | cons t₂ ts =>
      simp only [List.map_cons, intercalate_cons_cons']
      have := ih (fun x hx => h x (by simp [hx]))
      simp only [List.map_cons] at this
      rw [List.count_append, List.count_append, h0, this]
      simp only [endl, List.length_cons]
      have : List.count newline [10] = 1 := by decide
      rw [this]
      omega

theorem printMatrix_eq {n : ℕ} (M : Fin n → Fin n → FP) : printMatrix M =
    rowsText (matrixWidth M) ((List.finRange n).map fun i => (List.finRange n).map fun j => (M i j).text) := by
  unfold printMatrix rowsText rowText
  simp only [List.map_map, Function.comp_def]

theorem printMatrix_words {n : ℕ} (M : Fin n → Fin n → FP) :
    ∀ ts ∈ ((List.finRange n).map fun i => (List.finRange n).map fun j => (M i j).text),
      ts.length = n ∧ ∀ t ∈ ts, Word t := by
  intro ts hts
  obtain ⟨i, -, rfl⟩ := List.mem_map.1 hts
  refine ⟨by simp, fun t ht => ?_⟩
  obtain ⟨j, -, rfl⟩ := List.mem_map.1 ht
  exact word_text _

theorem printMatrix_inj {n : ℕ} {M M' : Fin n → Fin n → FP} {r r' : Text}
    (h : printMatrix M ++ newline :: r = printMatrix M' ++ newline :: r') :
    (∀ i j, LookAlike (M i j) (M' i j)) ∧ r = r' := by
  rw [printMatrix_eq, printMatrix_eq] at h
  obtain ⟨h1, h2⟩ := rowsText_inj (by simp) (printMatrix_words M) (printMatrix_words M') h
  refine ⟨fun i j => (text_eq_iff _ _).1 ?_, h2⟩
  have h3 := List.map_inj_left.1 h1 i (List.mem_finRange i)
  exact List.map_inj_left.1 h3 j (List.mem_finRange j)

theorem printMatrix_congr {n : ℕ} {M M' : Fin n → Fin n → FP} (h : ∀ i j, LookAlike (M i j) (M' i j)) :
    printMatrix M = printMatrix M' := by
  have e : ∀ i j, (M i j).text = (M' i j).text := fun i j => (text_eq_iff _ _).2 (h i j)
  unfold printMatrix matrixWidth
  simp only [e]

theorem printMatrix_count {n : ℕ} (M : Fin n → Fin n → FP) : (printMatrix M).count newline = n - 1 := by
  rw [printMatrix_eq, rowsText_count fun ts hts => (printMatrix_words M ts hts).2]
  simp

/-! ## Objects -/

/-- what is printed after the UUID -/
def bodyText {S : Type} {n : ℕ} (printState : S → Text) (o : EntityF S n) : Text :=
  printState o.state ++ endl ++ ascii "Covariance:" ++ endl ++ printMatrix o.covariance ++
    endl ++ ascii "------------------------------------------------------------" ++ endl ++ endl

theorem printEntity_eq {S : Type} {n : ℕ} (printState : S → Text) (o : EntityF S n) :
    printEntity unit printState o = printLine unit "Timestamp: " o.timestamp .time ++
      (ascii "UUID: " ++ (o.uuid.value ++ newline :: bodyText printState o)) := by
  unfold printEntity bodyText Uuid.print endl
  simp only [List.append_assoc, List.cons_append, List.nil_append]

theorem bodyText_inj {S : Type} {n : ℕ} {printState : S → Text} {states : S → S → Prop}
    (hs : ∀ {s s' : S} {r r' : Text}, printState s ++ r = printState s' ++ r' → states s s' ∧ r = r')
    {o o' : EntityF S n} {r r' : Text} (h : bodyText printState o ++ r = bodyText printState o' ++ r') :
    states o.state o'.state ∧ (∀ i j, LookAlike (o.covariance i j) (o'.covariance i j)) ∧ r = r' := by
  unfold bodyText at h
  simp only [List.append_assoc] at h
  obtain ⟨h1, h⟩ := hs h
  simp only [List.append_cancel_left_eq] at h
  unfold endl at h
  simp only [List.singleton_append] at h
  obtain ⟨h2, h⟩ := printMatrix_inj h
  rw [List.append_cancel_left_eq] at h
  exact ⟨h1, h2, by simpa using h⟩

theorem bodyText_count {S : Type} {n k : ℕ} {printState : S → Text} (o : EntityF S n)
    (hk : (printState o.state).count newline = k) : (bodyText printState o).count newline = k + (n - 1) + 5 := by
  unfold bodyText
  simp only [List.count_append]
  rw [hk, printMatrix_count]
  have e1 : List.count newline endl = 1 := by decide
  have e2 : List.count newline (ascii "Covariance:") = 0 := by decide
  have e3 : List.count newline (ascii "------------------------------------------------------------") = 0 := by decide
  rw [e1, e2, e3]
  omega

/-- the same kind of object -/
theorem printEntity_inj (hu : IsUnitText unit) {S : Type} {n k : ℕ} {printState : S → Text} {states : S → S → Prop}
    (hs : ∀ {s s' : S} {r r' : Text}, printState s ++ r = printState s' ++ r' → states s s' ∧ r = r')
    (hk : ∀ s, (printState s).count newline = k) {o o' : EntityF S n}
    (h : printEntity unit printState o = printEntity unit printState o') : LookAlikeObjects states o o' := by
  rw [printEntity_eq, printEntity_eq] at h
  obtain ⟨h1, h⟩ := printLine_inj hu h
  rw [List.append_cancel_left_eq] at h
  obtain ⟨h2, h⟩ := split_from_end ((bodyText_count o (hk _)).trans (bodyText_count o' (hk _)).symm) h
  obtain ⟨h3, h4, -⟩ := bodyText_inj hs (o := o) (o' := o') (r := []) (r' := []) (by rw [h])
  exact ⟨(text_eq_iff _ _).1 h1, Uuid.value_injective h2, h3, h4⟩

/-- the same kind of object and UUIDs without newline: a prefix code -/
theorem printEntity_prefix (hu : IsUnitText unit) {S : Type} {n : ℕ} {printState : S → Text} {states : S → S → Prop}
    (hs : ∀ {s s' : S} {r r' : Text}, printState s ++ r = printState s' ++ r' → states s s' ∧ r = r')
    {o o' : EntityF S n} (hn : newline ∉ o.uuid.value) (hn' : newline ∉ o'.uuid.value) {r r' : Text}
    (h : printEntity unit printState o ++ r = printEntity unit printState o' ++ r') :
    LookAlikeObjects states o o' ∧ r = r' := by
  rw [printEntity_eq, printEntity_eq] at h
  simp only [List.append_assoc] at h
  obtain ⟨h1, h⟩ := printLine_inj hu h
  rw [List.append_cancel_left_eq] at h
  simp only [List.cons_append] at h
  obtain ⟨h2, h⟩ := split_at_char hn hn' h
  obtain ⟨h3, h4, h5⟩ := bodyText_inj hs h
  exact ⟨⟨(text_eq_iff _ _).1 h1, Uuid.value_injective h2, h3, h4⟩, h5⟩

theorem printEntity_congr {S : Type} {n : ℕ} {printState : S → Text} {states : S → S → Prop}
    (hs : ∀ {s s' : S}, states s s' → printState s = printState s') {o o' : EntityF S n}
    (h : LookAlikeObjects states o o') : printEntity unit printState o = printEntity unit printState o' := by
  obtain ⟨h1, h2, h3, h4⟩ := h
  unfold printEntity printLine
  rw [(text_eq_iff _ _).2 h1, h2, hs h3, printMatrix_congr h4]

/-- an object with a CTRV state never prints like one with a CTRA state -/
theorem printEntity_ne (hu : IsUnitText unit) (o : EntityF (CtrvStateF m) 5) (o' : EntityF (CtraStateF m) 6) :
    printEntity unit (CtrvStateF.print unit) o ≠ printEntity unit (CtraStateF.print unit) o' := by
  intro h
  rw [printEntity_eq, printEntity_eq] at h
  obtain ⟨-, h⟩ := printLine_inj hu h
  rw [List.append_cancel_left_eq] at h
  have c1 := bodyText_count o (ctrv_print_count hu o.state)
  have c2 := bodyText_count o' (ctra_print_count hu o'.state)
  rcases List.append_eq_append_iff.1 h with ⟨s, h1, h2⟩ | ⟨s, h1, h2⟩
  · cases s with
    | nil =>
      rw [List.nil_append, List.cons.injEq] at h2
      rw [h2.2, c2] at c1
      omega
    | cons c s =>
      simp only [List.cons_append, List.cons.injEq] at h2
      have := congrArg (List.count newline) h2.2
      rw [List.count_append, List.count_cons_self] at this
      omega
  · cases s with
    | nil =>
      rw [List.nil_append, List.cons.injEq] at h2
      rw [h2.2, c1] at c2
      omega
    | cons c s =>
      simp only [List.cons_append, List.cons.injEq] at h2
      replace h2 := h2.2
      have hs : s.count newline = 1 := by
        have := congrArg (List.count newline) h2
        rw [List.count_append, List.count_cons_self] at this
        omega
      have hmem : newline ∈ s := List.count_pos_iff.1 (by omega)
      obtain ⟨s1, s2, hs1, hs2⟩ := List.eq_append_cons_of_mem hmem
      have hn2 : newline ∉ s2 := by
        rw [hs1, List.count_append, List.count_cons_self, List.count_eq_zero_of_not_mem hs2] at hs
        exact List.count_eq_zero.1 (by omega)
      obtain ⟨lx, hlx, ex⟩ := printLine_line hu (l := "x: ") (by decide) o'.state.x .length
      have hb : bodyText (CtraStateF.print unit) o' = ascii "CtraState: " ++ newline :: (lx ++ newline ::
          (ascii "y: " ++ (o'.state.y.text ++ unit .length ++ endl ++
          (printLine unit "velocity: " o'.state.v .speed ++ printLine unit "yaw: " (m.getAngle o'.state.yaw) .angle ++
          printLine unit "yaw rate: " o'.state.yawRate .rate ++ printLine unit "acceleration: " o'.state.a .acceleration ++
          (endl ++ ascii "Covariance:" ++ endl ++ printMatrix o'.covariance ++
    endl ++ ascii "------------------------------------------------------------" ++ endl ++ endl))))) := by
        unfold bodyText CtraStateF.print
        rw [ex]
        unfold printLine endl
        simp only [List.append_assoc, List.cons_append, List.nil_append]
      rw [hb, hs1] at h2
      simp only [List.append_assoc, List.cons_append] at h2
      obtain ⟨-, h2⟩ := split_at_char (by decide) hs2 h2
      obtain ⟨-, h2⟩ := split_at_char hlx hn2 h2
      unfold bodyText CtrvStateF.print at h2
      simp only [List.append_assoc] at h2
      have e1 : ascii "y: " = 121 :: ascii ": " := by decide
      have e2 : ascii "CtrvState: " = 67 :: ascii "trvState: " := by decide
      rw [e1, e2, List.cons_append, List.cons_append, List.cons.injEq] at h2
      exact absurd h2.1 (by decide)

/-- in a sequence, too, if UUIDs contain no newline -/
theorem printEntity_prefix_ne (hu : IsUnitText unit) {o : EntityF (CtrvStateF m) 5} {o' : EntityF (CtraStateF m) 6}
    (hn : newline ∉ o.uuid.value) (hn' : newline ∉ o'.uuid.value) {r r' : Text} :
    printEntity unit (CtrvStateF.print unit) o ++ r ≠ printEntity unit (CtraStateF.print unit) o' ++ r' := by
  intro h
  rw [printEntity_eq, printEntity_eq] at h
  simp only [List.append_assoc] at h
  obtain ⟨-, h⟩ := printLine_inj hu h
  rw [List.append_cancel_left_eq] at h
  simp only [List.cons_append] at h
  obtain ⟨-, h⟩ := split_at_char hn hn' h
  unfold bodyText CtrvStateF.print CtraStateF.print at h
  simp only [List.append_assoc] at h
  have e1 : ascii "CtrvState: " = ascii "Ctr" ++ (118 :: ascii "State: ") := by decide
  have e2 : ascii "CtraState: " = ascii "Ctr" ++ (97 :: ascii "State: ") := by decide
  rw [e1, e2, List.append_assoc, List.append_assoc, List.append_cancel_left_eq, List.cons_append, List.cons_append,
    List.cons.injEq] at h
  exact absurd h.1 (by decide)

end

end Mot
