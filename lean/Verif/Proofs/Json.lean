import Verif.Spec.Json
import Verif.Proofs.Angle
/-!
# Reading JSON: the functions against the relations
-/

namespace Mot

open Json Spec

theorem Outcome.bind_ok_iff {α β : Type} {x : Outcome α} {f : α → Outcome β} {b : β} :
    x.bind f = .ok b ↔ ∃ a, x = .ok a ∧ f a = .ok b := by
  cases x <;> simp [Outcome.bind]

theorem Outcome.bind_ub_iff {α β : Type} {x : Outcome α} {f : α → Outcome β} {w : Why} :
    x.bind f = .ub w ↔ x = .ub w ∨ ∃ a, x = .ok a ∧ f a = .ub w := by
  cases x <;> simp [Outcome.bind]

theorem Outcome.mapM'_ok_iff {α β : Type} {f : α → Outcome β} {l : List α} {bs : List β} :
    Outcome.mapM' f l = .ok bs ↔ List.Forall₂ (fun a b => f a = .ok b) l bs := by
  induction l generalizing bs with
  | nil => simp [Outcome.mapM', eq_comm]
  | cons a l ih =>
    rw [Outcome.mapM']
    rcases hf : f a with b | e | w
    · rcases hm : Outcome.mapM' f l with cs | e | w
      · simp only [Outcome.ok.injEq]
        constructor
        · rintro rfl
          exact .cons hf (ih.1 hm)
        · rintro (_ | ⟨h1, h2⟩)
          rw [hf] at h1
          rw [ih.2 h2] at hm
          cases h1; cases hm; rfl
      all_goals
        simp only [reduceCtorEq, false_iff]
        rintro (_ | ⟨h1, h2⟩)
        rw [ih.2 h2] at hm
        cases hm
    all_goals
      simp only [reduceCtorEq, false_iff]
      rintro (_ | ⟨h1, h2⟩)
      rw [hf] at h1
      cases h1

theorem Outcome.mapM'_ub_iff {α β : Type} {f : α → Outcome β} {l : List α} {w : Why} :
    Outcome.mapM' f l = .ub w ↔
      ∃ l₁ a l₂, l = l₁ ++ a :: l₂ ∧ (∀ x ∈ l₁, ∃ b, f x = .ok b) ∧ f a = .ub w := by
  induction l with
  | nil => simp [Outcome.mapM']
  | cons a l ih =>
    have step : (∃ l₁ a' l₂, a :: l = l₁ ++ a' :: l₂ ∧ (∀ x ∈ l₁, ∃ b, f x = .ok b) ∧ f a' = .ub w) ↔
        f a = .ub w ∨ (∃ b, f a = .ok b) ∧
          ∃ l₁ a' l₂, l = l₁ ++ a' :: l₂ ∧ (∀ x ∈ l₁, ∃ b, f x = .ok b) ∧ f a' = .ub w := by
      constructor
      · rintro ⟨l₁, a', l₂, h1, h2, h3⟩
        cases l₁ with
        | nil => simp only [List.nil_append, List.cons.injEq] at h1; rw [h1.1]; exact .inl h3
        | cons x l₁ =>
          simp only [List.cons_append, List.cons.injEq] at h1
          exact .inr ⟨h1.1 ▸ h2 x (by simp), l₁, a', l₂, h1.2, fun y hy => h2 y (by simp [hy]), h3⟩
      · rintro (h | ⟨h1, l₁, a', l₂, h2, h3, h4⟩)
        · exact ⟨[], a, l, rfl, by simp, h⟩
        · refine ⟨a :: l₁, a', l₂, by rw [h2]; rfl, ?_, h4⟩
          intro x hx
          rcases List.mem_cons.1 hx with rfl | hx
          · exact h1
          · exact h3 x hx
    rw [step, ← ih, Outcome.mapM']
    rcases hf : f a with b | e | w'
    · rcases hm : Outcome.mapM' f l with cs | e | w' <;> simp
    · simp
    · simp

theorem Outcome.mapM'_throw_iff {α β : Type} {f : α → Outcome β} {l : List α} {w : Exc} :
    Outcome.mapM' f l = .throw w ↔
      ∃ l₁ a l₂, l = l₁ ++ a :: l₂ ∧ (∀ x ∈ l₁, ∃ b, f x = .ok b) ∧ f a = .throw w := by
  induction l with
  | nil => simp [Outcome.mapM']
  | cons a l ih =>
    have step : (∃ l₁ a' l₂, a :: l = l₁ ++ a' :: l₂ ∧ (∀ x ∈ l₁, ∃ b, f x = .ok b) ∧
        f a' = .throw w) ↔ f a = .throw w ∨ (∃ b, f a = .ok b) ∧
          ∃ l₁ a' l₂, l = l₁ ++ a' :: l₂ ∧ (∀ x ∈ l₁, ∃ b, f x = .ok b) ∧ f a' = .throw w := by
      constructor
      · rintro ⟨l₁, a', l₂, h1, h2, h3⟩
        cases l₁ with
        | nil => simp only [List.nil_append, List.cons.injEq] at h1; rw [h1.1]; exact .inl h3
        | cons x l₁ =>
          simp only [List.cons_append, List.cons.injEq] at h1
          exact .inr ⟨h1.1 ▸ h2 x (by simp), l₁, a', l₂, h1.2, fun y hy => h2 y (by simp [hy]), h3⟩
      · rintro (h | ⟨h1, l₁, a', l₂, h2, h3, h4⟩)
        · exact ⟨[], a, l, rfl, by simp, h⟩
        · refine ⟨a :: l₁, a', l₂, by rw [h2]; rfl, ?_, h4⟩
          intro x hx
          rcases List.mem_cons.1 hx with rfl | hx
          · exact h1
          · exact h3 x hx
    rw [step, ← ih, Outcome.mapM']
    rcases hf : f a with b | e | w'
    · rcases hm : Outcome.mapM' f l with cs | e | w' <;> simp
    · simp
    · simp

theorem find_iff {k : List (Fin 256)} {l : List (List (Fin 256) × Json)} {v : Json} :
    Json.find k l = some v ↔ HasField (.obj l) k v := by
  induction l with
  | nil => simp only [Json.find, reduceCtorEq, false_iff]; intro h; cases h
  | cons p l ih =>
    obtain ⟨k', v'⟩ := p
    rw [Json.find]
    by_cases hk : k' = k
    · rw [if_pos hk]
      subst hk
      constructor
      · rintro ⟨⟩; exact .here _ _ _
      · intro h
        cases h with
        | here => rfl
        | there _ _ _ _ _ h => exact absurd rfl h
    · rw [if_neg hk, ih]
      constructor
      · exact fun h => .there _ _ _ _ _ hk h
      · intro h
        cases h with
        | here => exact absurd rfl hk
        | there _ _ _ _ _ _ h => exact h

theorem Spec.HasField.isObj {j : Json} {k : List (Fin 256)} {v : Json} (h : HasField j k v) :
    ∃ l, j = .obj l := by
  cases h <;> exact ⟨_, rfl⟩

theorem at'_ok_iff {j : Json} {k : String} {v : Json} :
    j.at' k = .ok v ↔ HasField j (lit k) v := by
  constructor
  · intro h
    unfold Json.at' at h
    split at h
    · split at h
      · cases h; exact find_iff.1 ‹_›
      · cases h
    · cases h
  · intro h
    obtain ⟨l, rfl⟩ := h.isObj
    unfold Json.at'
    simp only [find_iff.2 h]

theorem hasField_unique {j : Json} {k : List (Fin 256)} {v w : Json} (h : HasField j k v)
    (h' : HasField j k w) : v = w := by
  obtain ⟨l, rfl⟩ := h.isObj
  have h1 := find_iff.2 h
  rw [find_iff.2 h'] at h1
  exact (Option.some.inj h1).symm

theorem at'_ne_ub {j : Json} {k : String} {w : Why} : j.at' k ≠ .ub w := by
  unfold Json.at'
  split
  · split <;> simp
  · simp

theorem at'_throw {j : Json} {k : String} {e : Exc} (h : j.at' k = .throw e) : e = .jsonError := by
  unfold Json.at' at h
  split at h
  · split at h <;> cases h; rfl
  · cases h; rfl

theorem getDouble_ok_iff {j : Json} {x : ℝ} : j.getDouble = .ok x ↔ j = .num x := by
  cases j <;> simp [Json.getDouble]

theorem getDouble_ne_ub {j : Json} {w : Why} : j.getDouble ≠ .ub w := by
  cases j <;> simp [Json.getDouble]

theorem getString_ok_iff {j : Json} {x : List (Fin 256)} : j.getString = .ok x ↔ j = .str x := by
  cases j <;> simp [Json.getString]

theorem getString_ne_ub {j : Json} {w : Why} : j.getString ≠ .ub w := by
  cases j <;> simp [Json.getString]

theorem getFloat_ok_iff {rf : ℝ → ℝ} {j : Json} {x : ℝ} :
    j.getFloat rf = .ok x ↔ ReadsAs rf j x := by
  cases j with
  | num y =>
    simp only [Json.getFloat, Outcome.ok.injEq]
    exact ⟨fun h => h ▸ .num _, fun h => by cases h; rfl⟩
  | bool b =>
    cases b
    · simp only [Json.getFloat, Outcome.ok.injEq]
      exact ⟨fun h => by rw [← h]; exact .no, fun h => by cases h; rfl⟩
    · simp only [Json.getFloat, Outcome.ok.injEq]
      exact ⟨fun h => by rw [← h]; exact .yes, fun h => by cases h; rfl⟩
  | _ => simp only [Json.getFloat, reduceCtorEq, false_iff]; intro h; cases h

theorem getFloat_ne_ub {rf : ℝ → ℝ} {j : Json} {w : Why} : j.getFloat rf ≠ .ub w := by
  cases j <;> simp [Json.getFloat]

theorem getFloats_ne_ub {rf : ℝ → ℝ} {j : Json} {w : Why} : j.getFloats rf ≠ .ub w := by
  cases j with
  | arr l =>
    rw [Json.getFloats]
    intro h
    obtain ⟨_, _, _, _, _, h⟩ := Outcome.mapM'_ub_iff.1 h
    exact getFloat_ne_ub h
  | _ => simp [Json.getFloats]

theorem getFloats_ok_iff {rf : ℝ → ℝ} {j : Json} {xs : List ℝ} :
    j.getFloats rf = .ok xs ↔ ∃ l, j = .arr l ∧ List.Forall₂ (ReadsAs rf) l xs := by
  cases j with
  | arr l =>
    rw [Json.getFloats, Outcome.mapM'_ok_iff]
    simp only [getFloat_ok_iff, Json.arr.injEq, exists_eq_left']
  | _ => simp [Json.getFloats]

theorem readsAs_unique {rf : ℝ → ℝ} {j : Json} {x y : ℝ} (h : ReadsAs rf j x) (h' : ReadsAs rf j y) :
    x = y := by
  have h1 := getFloat_ok_iff.2 h
  rw [getFloat_ok_iff.2 h'] at h1
  exact (Outcome.ok.inj h1).symm

theorem index_lt {n : ℕ} (r c : Fin n) : r.1 * n + c.1 < n * n := by
  have h1 := r.2
  have h2 := c.2
  calc r.1 * n + c.1 < r.1 * n + n := by omega
    _ = (r.1 + 1) * n := by ring
    _ ≤ n * n := Nat.mul_le_mul_right _ h1

theorem covFromJson_ok_iff {rf : ℝ → ℝ} {n : ℕ} {j : Json} {C : Matrix (Fin n) (Fin n) ℝ} :
    covFromJson rf n j = .ok C ↔ IsRowMajor rf j C := by
  unfold covFromJson
  rw [Outcome.bind_ok_iff]
  constructor
  · rintro ⟨xs, h1, h2⟩
    obtain ⟨l, rfl, hl⟩ := getFloats_ok_iff.1 h1
    have hlen := hl.length_eq
    unfold eigenMap at h2
    split at h2 <;> rename_i h3
    · cases h2
    · split at h3
      · cases h3
      · rename_i h4
        cases h3
        cases h2
        refine ⟨l, rfl, by omega, ?_, ?_⟩
        · intro e he
          obtain ⟨i, hi, rfl⟩ := List.mem_iff_getElem.1 he
          exact ⟨_, (List.forall₂_iff_get.1 hl).2 i hi (hlen ▸ hi)⟩
        · intro r c e he
          have hlt := index_lt r c
          obtain ⟨hi, rfl⟩ := List.getElem?_eq_some_iff.1 he
          have := (List.forall₂_iff_get.1 hl).2 (r.1 * n + c.1) hi (hlen ▸ hi)
          show ReadsAs rf _ (xs.getD (r.1 * n + c.1) 0)
          rw [List.getD_eq_getElem?_getD, List.getElem?_eq_getElem (hlen ▸ hi), Option.getD_some]
          exact this
  · rintro ⟨l, rfl, h1, h2, h3⟩
    have : ∃ xs, List.Forall₂ (ReadsAs rf) l xs := by
      clear h1 h3
      induction l with
      | nil => exact ⟨[], .nil⟩
      | cons e l ih =>
        obtain ⟨x, hx⟩ := h2 e (by simp)
        obtain ⟨xs, hxs⟩ := ih fun e he => h2 e (by simp [he])
        exact ⟨x :: xs, .cons hx hxs⟩
    obtain ⟨xs, hxs⟩ := this
    have hlen := hxs.length_eq
    refine ⟨xs, getFloats_ok_iff.2 ⟨l, rfl, hxs⟩, ?_⟩
    unfold eigenMap
    rw [if_neg (by omega)]
    simp only [Outcome.ok.injEq]
    ext r c
    have hlt := index_lt r c
    have hi : r.1 * n + c.1 < l.length := by omega
    show xs.getD (r.1 * n + c.1) 0 = C r c
    rw [List.getD_eq_getElem?_getD, List.getElem?_eq_getElem (hlen ▸ hi), Option.getD_some]
    exact readsAs_unique ((List.forall₂_iff_get.1 hxs).2 (r.1 * n + c.1) hi (hlen ▸ hi))
      (h3 r c _ (List.getElem?_eq_getElem hi))

theorem covFromJson_ub {rf : ℝ → ℝ} {n : ℕ} {j : Json} {w : Why} (h : covFromJson rf n j = .ub w) :
    w = .oobRead ∧ ∃ l, j = .arr l ∧ l.length < n * n := by
  unfold covFromJson at h
  rcases Outcome.bind_ub_iff.1 h with h | ⟨xs, h1, h2⟩
  · exact absurd h getFloats_ne_ub
  · obtain ⟨l, rfl, hl⟩ := getFloats_ok_iff.1 h1
    unfold eigenMap at h2
    split at h2 <;> rename_i h3
    · split at h3
      · cases h2
        exact ⟨rfl, l, rfl, by rw [hl.length_eq]; assumption⟩
      · cases h3
    · cases h2

theorem covFromJson_short {rf : ℝ → ℝ} {n : ℕ} {l : List Json} (h : ∀ e ∈ l, ∃ x, ReadsAs rf e x)
    (hl : l.length < n * n) : covFromJson rf n (.arr l) = .ub .oobRead := by
  have : ∃ xs, List.Forall₂ (ReadsAs rf) l xs := by
    clear hl
    induction l with
    | nil => exact ⟨[], .nil⟩
    | cons e l ih =>
      obtain ⟨x, hx⟩ := h e (by simp)
      obtain ⟨xs, hxs⟩ := ih fun e he => h e (by simp [he])
      exact ⟨x :: xs, .cons hx hxs⟩
  obtain ⟨xs, hxs⟩ := this
  unfold covFromJson eigenMap
  rw [getFloats_ok_iff.2 ⟨l, rfl, hxs⟩]
  simp only [Outcome.bind]
  rw [if_pos (by rw [← hxs.length_eq]; exact hl)]

theorem isAngle_iff {θ : Angle} {x : ℝ} : IsAngle θ x ↔ θ = Angle.ofRad x := by
  constructor
  · rintro ⟨h1, h2⟩
    rw [← Angle.ofRad_getAngle (a := θ) h1]
    exact Angle.ofRad_eq_iff.2 h2
  · rintro rfl
    exact ⟨Angle.norm_ofRad x, Angle.sameDir_getAngle x⟩

theorem num_ok_iff {β : Type} {j : Json} {k : String} {f : ℝ → Outcome β} {b : β} :
    ((j.at' k).bind fun x => x.getDouble.bind f) = .ok b ↔ ∃ x, NumField j k x ∧ f x = .ok b := by
  rw [Outcome.bind_ok_iff]
  constructor
  · rintro ⟨v, h1, h2⟩
    obtain ⟨x, h3, h4⟩ := Outcome.bind_ok_iff.1 h2
    rw [getDouble_ok_iff] at h3
    subst h3
    exact ⟨x, at'_ok_iff.1 h1, h4⟩
  · rintro ⟨x, h1, h2⟩
    exact ⟨_, at'_ok_iff.2 h1, Outcome.bind_ok_iff.2 ⟨x, rfl, h2⟩⟩

theorem num_ub {β : Type} {j : Json} {k : String} {f : ℝ → Outcome β} {w : Why}
    (h : ((j.at' k).bind fun x => x.getDouble.bind f) = .ub w) : ∃ x, f x = .ub w := by
  rcases Outcome.bind_ub_iff.1 h with h | ⟨v, -, h⟩
  · exact absurd h at'_ne_ub
  · rcases Outcome.bind_ub_iff.1 h with h | ⟨x, -, h⟩
    · exact absurd h getDouble_ne_ub
    · exact ⟨x, h⟩

theorem ctrvState_ok_iff {j : Json} {s : CtrvState} :
    ctrvStateFromJson j = .ok s ↔ IsCtrvState j s := by
  unfold ctrvStateFromJson
  constructor
  · intro h
    obtain ⟨x, hx, h⟩ := num_ok_iff.1 h
    obtain ⟨y, hy, h⟩ := num_ok_iff.1 h
    obtain ⟨v, hv, h⟩ := num_ok_iff.1 h
    obtain ⟨t, ht, h⟩ := num_ok_iff.1 h
    obtain ⟨w, hw, h⟩ := num_ok_iff.1 h
    cases h
    exact ⟨hx, hy, hv, ⟨t, ht, isAngle_iff.2 rfl⟩, hw⟩
  · rintro ⟨hx, hy, hv, ⟨t, ht, h⟩, hw⟩
    refine num_ok_iff.2 ⟨_, hx, num_ok_iff.2 ⟨_, hy, num_ok_iff.2 ⟨_, hv, num_ok_iff.2 ⟨_, ht,
      num_ok_iff.2 ⟨_, hw, ?_⟩⟩⟩⟩⟩
    rw [← isAngle_iff.1 h]

theorem ctrvState_ne_ub {j : Json} {w : Why} : ctrvStateFromJson j ≠ .ub w := by
  unfold ctrvStateFromJson
  intro h
  obtain ⟨_, h⟩ := num_ub h
  obtain ⟨_, h⟩ := num_ub h
  obtain ⟨_, h⟩ := num_ub h
  obtain ⟨_, h⟩ := num_ub h
  obtain ⟨_, h⟩ := num_ub h
  cases h

theorem ctraState_ok_iff {j : Json} {s : CtraState} :
    ctraStateFromJson j = .ok s ↔ IsCtraState j s := by
  unfold ctraStateFromJson
  constructor
  · intro h
    obtain ⟨x, hx, h⟩ := num_ok_iff.1 h
    obtain ⟨y, hy, h⟩ := num_ok_iff.1 h
    obtain ⟨v, hv, h⟩ := num_ok_iff.1 h
    obtain ⟨t, ht, h⟩ := num_ok_iff.1 h
    obtain ⟨w, hw, h⟩ := num_ok_iff.1 h
    obtain ⟨a, ha, h⟩ := num_ok_iff.1 h
    cases h
    exact ⟨hx, hy, hv, ⟨t, ht, isAngle_iff.2 rfl⟩, hw, ha⟩
  · rintro ⟨hx, hy, hv, ⟨t, ht, h⟩, hw, ha⟩
    refine num_ok_iff.2 ⟨_, hx, num_ok_iff.2 ⟨_, hy, num_ok_iff.2 ⟨_, hv, num_ok_iff.2 ⟨_, ht,
      num_ok_iff.2 ⟨_, hw, num_ok_iff.2 ⟨_, ha, ?_⟩⟩⟩⟩⟩⟩
    rw [← isAngle_iff.1 h]

theorem ctraState_ne_ub {j : Json} {w : Why} : ctraStateFromJson j ≠ .ub w := by
  unfold ctraStateFromJson
  intro h
  obtain ⟨_, h⟩ := num_ub h
  obtain ⟨_, h⟩ := num_ub h
  obtain ⟨_, h⟩ := num_ub h
  obtain ⟨_, h⟩ := num_ub h
  obtain ⟨_, h⟩ := num_ub h
  obtain ⟨_, h⟩ := num_ub h
  cases h

section
variable {S C : Type} {state : Json → Outcome S} {cov : Json → Outcome C}
  {isState : Json → S → Prop} {isCov : Json → C → Prop}

theorem field_ok_iff {β γ : Type} {j : Json} {k : String} {g : Json → Outcome γ} {f : γ → Outcome β}
    {b : β} : ((j.at' k).bind fun v => (g v).bind f) = .ok b ↔
      ∃ c, (∃ v, HasField j (lit k) v ∧ g v = .ok c) ∧ f c = .ok b := by
  simp only [Outcome.bind_ok_iff, at'_ok_iff]
  constructor
  · rintro ⟨v, h1, c, h2, h3⟩; exact ⟨c, ⟨v, h1, h2⟩, h3⟩
  · rintro ⟨c, ⟨v, h1, h2⟩, h3⟩; exact ⟨v, h1, c, h2, h3⟩

theorem field_ub {β γ : Type} {j : Json} {k : String} {g : Json → Outcome γ} {f : γ → Outcome β}
    {w : Why} (h : ((j.at' k).bind fun v => (g v).bind f) = .ub w) :
    (∃ v, HasField j (lit k) v ∧ g v = .ub w) ∨ ∃ c, f c = .ub w := by
  rcases Outcome.bind_ub_iff.1 h with h | ⟨v, h1, h⟩
  · exact absurd h at'_ne_ub
  · rcases Outcome.bind_ub_iff.1 h with h | ⟨c, -, h⟩
    · exact .inl ⟨v, at'_ok_iff.1 h1, h⟩
    · exact .inr ⟨c, h⟩

theorem obj_ok_iff (hs : ∀ j s, state j = .ok s ↔ isState j s) (hc : ∀ j c, cov j = .ok c ↔ isCov j c)
    {j : Json} {o : DynObj S C} :
    objFromJson state cov j = .ok o ↔ IsObject isState isCov j o := by
  unfold objFromJson
  rw [num_ok_iff]
  simp only [field_ok_iff, hs, hc]
  constructor
  · rintro ⟨t, ht, s, hs, c, hc, u, ⟨v, hv, hu⟩, h⟩
    cases h
    unfold uuidFromJson at hu
    obtain ⟨x, hx, h⟩ := Outcome.bind_ok_iff.1 hu
    cases h
    rw [getString_ok_iff] at hx
    subst hx
    exact ⟨ht, hs, hc, hv, rfl⟩
  · rintro ⟨ht, hs, hc, hu, hk⟩
    refine ⟨_, ht, _, hs, _, hc, o.uuid, ⟨_, hu, rfl⟩, ?_⟩
    rw [← hk]

theorem obj_ub (hs : ∀ j w, state j ≠ .ub w) {j : Json} {w : Why}
    (h : objFromJson state cov j = .ub w) : ∃ v, HasField j (lit "covariance") v ∧ cov v = .ub w := by
  unfold objFromJson at h
  obtain ⟨_, h⟩ := num_ub h
  rcases field_ub h with ⟨v, -, h⟩ | ⟨_, h⟩
  · exact absurd h (hs _ _)
  · rcases field_ub h with h | ⟨_, h⟩
    · exact h
    · rcases field_ub h with ⟨v, -, h⟩ | ⟨_, h⟩
      · unfold uuidFromJson at h
        rcases Outcome.bind_ub_iff.1 h with h | ⟨_, -, h⟩
        · exact absurd h getString_ne_ub
        · cases h
      · cases h

end

theorem ctrv_ok_iff {rf : ℝ → ℝ} {j : Json} {o : DynObj CtrvState CtrvCov} :
    ctrvFromJson rf j = .ok o ↔ IsCtrv rf j o :=
  obj_ok_iff (fun _ _ => ctrvState_ok_iff) (fun _ _ => covFromJson_ok_iff)

theorem ctra_ok_iff {rf : ℝ → ℝ} {j : Json} {o : DynObj CtraState CtraCov} :
    ctraFromJson rf j = .ok o ↔ IsCtra rf j o :=
  obj_ok_iff (fun _ _ => ctraState_ok_iff) (fun _ _ => covFromJson_ok_iff)

theorem model_ok_iff {β : Type} {j : Json} {f : List (Fin 256) → Outcome β} {b : β} :
    ((j.at' "motion_model").bind fun m => m.getString.bind f) = .ok b ↔
      ∃ m, HasField j (lit "motion_model") (.str m) ∧ f m = .ok b := by
  rw [field_ok_iff]
  simp only [getString_ok_iff]
  constructor
  · rintro ⟨m, ⟨v, h1, rfl⟩, h2⟩; exact ⟨m, h1, h2⟩
  · rintro ⟨m, h1, h2⟩; exact ⟨m, ⟨_, h1, rfl⟩, h2⟩

theorem model_eq {β : Type} {j : Json} {f : List (Fin 256) → Outcome β} {m : List (Fin 256)}
    (h : HasField j (lit "motion_model") (.str m)) :
    ((j.at' "motion_model").bind fun m => m.getString.bind f) = f m := by
  rw [at'_ok_iff.2 h]
  rfl

theorem model_ub {β : Type} {j : Json} {f : List (Fin 256) → Outcome β} {w : Why}
    (h : ((j.at' "motion_model").bind fun m => m.getString.bind f) = .ub w) :
    ∃ m, HasField j (lit "motion_model") (.str m) ∧ f m = .ub w := by
  rcases Outcome.bind_ub_iff.1 h with h | ⟨v, h1, h⟩
  · exact absurd h at'_ne_ub
  · rcases Outcome.bind_ub_iff.1 h with h | ⟨c, h2, h⟩
    · exact absurd h getString_ne_ub
    · rw [getString_ok_iff] at h2
      subst h2
      exact ⟨c, at'_ok_iff.1 h1, h⟩

theorem lit_ctrv_ne_ctra : lit "ctra" ≠ lit "ctrv" := by decide

theorem ctrvEntry_ok_iff {rf : ℝ → ℝ} {j : Json} {o : DynObj CtrvState CtrvCov} :
    ctrvEntry rf j = .ok o ↔ IsEntry rf j (.inl o) := by
  unfold ctrvEntry
  rw [model_ok_iff]
  constructor
  · rintro ⟨m, h1, h2⟩
    split at h2
    · subst m; exact ⟨h1, ctrv_ok_iff.1 h2⟩
    · cases h2
  · rintro ⟨h1, h2⟩
    exact ⟨_, h1, by rw [if_pos rfl]; exact ctrv_ok_iff.2 h2⟩

theorem ctraEntry_ok_iff {rf : ℝ → ℝ} {j : Json} {o : DynObj CtraState CtraCov} :
    ctraEntry rf j = .ok o ↔ IsEntry rf j (.inr o) := by
  unfold ctraEntry
  rw [model_ok_iff]
  constructor
  · rintro ⟨m, h1, h2⟩
    split at h2
    · subst m; exact ⟨h1, ctra_ok_iff.1 h2⟩
    · cases h2
  · rintro ⟨h1, h2⟩
    exact ⟨_, h1, by rw [if_pos rfl]; exact ctra_ok_iff.2 h2⟩

theorem variantEntry_ok_iff {rf : ℝ → ℝ} {j : Json} {o : Obj2 CtrvState CtrvCov CtraState CtraCov} :
    variantEntry rf j = .ok o ↔ IsEntry rf j o := by
  unfold variantEntry
  rw [model_ok_iff]
  constructor
  · rintro ⟨m, h1, h2⟩
    split at h2
    · subst m
      obtain ⟨o', h3, h4⟩ := Outcome.bind_ok_iff.1 h2
      cases h4
      exact ⟨h1, ctrv_ok_iff.1 h3⟩
    · split at h2
      · subst m
        obtain ⟨o', h3, h4⟩ := Outcome.bind_ok_iff.1 h2
        cases h4
        exact ⟨h1, ctra_ok_iff.1 h3⟩
      · cases h2
  · intro h
    match o with
    | .inl o =>
      exact ⟨_, h.1, by rw [if_pos rfl, ctrv_ok_iff.2 h.2]; rfl⟩
    | .inr o =>
      exact ⟨_, h.1, by rw [if_neg lit_ctrv_ne_ctra, if_pos rfl, ctra_ok_iff.2 h.2]; rfl⟩

theorem visits_iff {v : Json} {l : List Json} : Visits v l ↔ v.items = l := by
  constructor
  · intro h; cases h <;> rfl
  · rintro rfl
    cases v
    · exact .null
    · exact .bool _
    · exact .num _
    · exact .str _
    · exact .arr _
    · exact .obj _

section
variable {τ : Type} {entry : Json → Outcome τ} {key : String} {file : Option Json}

theorem load_of_lists {l : List Json} (h : Lists file key l) :
    loadJson entry key file = Outcome.mapM' entry l := by
  obtain ⟨data, v, rfl, h1, h2⟩ := h
  unfold loadJson
  simp only [at'_ok_iff.2 h1, Outcome.bind, visits_iff.1 h2]

theorem load_ok {os : List τ} (h : loadJson entry key file = .ok os) : ∃ l, Lists file key l := by
  unfold loadJson at h
  split at h
  · cases h
  · obtain ⟨v, h1, -⟩ := Outcome.bind_ok_iff.1 h
    exact ⟨_, _, v, rfl, at'_ok_iff.1 h1, visits_iff.2 rfl⟩

theorem load_ub {w : Why} (h : loadJson entry key file = .ub w) : ∃ l, Lists file key l := by
  unfold loadJson at h
  split at h
  · cases h
  · rcases Outcome.bind_ub_iff.1 h with h | ⟨v, h1, -⟩
    · exact absurd h at'_ne_ub
    · exact ⟨_, _, v, rfl, at'_ok_iff.1 h1, visits_iff.2 rfl⟩

theorem load_ok_iff {os : List τ} : loadJson entry key file = .ok os ↔
    ∃ l, Lists file key l ∧ List.Forall₂ (fun j o => entry j = .ok o) l os := by
  constructor
  · intro h
    obtain ⟨l, hl⟩ := load_ok h
    rw [load_of_lists hl] at h
    exact ⟨l, hl, Outcome.mapM'_ok_iff.1 h⟩
  · rintro ⟨l, hl, h⟩
    rw [load_of_lists hl]
    exact Outcome.mapM'_ok_iff.2 h

theorem load_ub_mem {w : Why} (h : loadJson entry key file = .ub w) :
    ∃ l, Lists file key l ∧ ∃ j ∈ l, entry j = .ub w := by
  obtain ⟨l, hl⟩ := load_ub h
  rw [load_of_lists hl] at h
  obtain ⟨l₁, a, l₂, rfl, -, h⟩ := Outcome.mapM'_ub_iff.1 h
  exact ⟨_, hl, a, by simp, h⟩

/-- an entry that throws, after entries that do not, makes the load throw -/
theorem load_throw {l₁ l₂ : List Json} {j : Json} {e : Exc} (h : Lists file key (l₁ ++ j :: l₂))
    (h1 : ∀ x ∈ l₁, ∃ o, entry x = .ok o) (h2 : entry j = .throw e) :
    loadJson entry key file = .throw e := by
  rw [load_of_lists h]
  exact Outcome.mapM'_throw_iff.2 ⟨l₁, j, l₂, rfl, h1, h2⟩

end

theorem ctrvEntry_ub {rf : ℝ → ℝ} {j : Json} {w : Why} (h : ctrvEntry rf j = .ub w) :
    w = .oobRead ∧ ShortCovariance 5 j := by
  obtain ⟨m, -, h⟩ := model_ub h
  split at h
  · obtain ⟨v, h1, h2⟩ := obj_ub (fun _ _ => ctrvState_ne_ub) h
    obtain ⟨rfl, l, rfl, h3⟩ := covFromJson_ub h2
    exact ⟨rfl, l, h1, h3⟩
  · cases h

theorem ctraEntry_ub {rf : ℝ → ℝ} {j : Json} {w : Why} (h : ctraEntry rf j = .ub w) :
    w = .oobRead ∧ ShortCovariance 6 j := by
  obtain ⟨m, -, h⟩ := model_ub h
  split at h
  · obtain ⟨v, h1, h2⟩ := obj_ub (fun _ _ => ctraState_ne_ub) h
    obtain ⟨rfl, l, rfl, h3⟩ := covFromJson_ub h2
    exact ⟨rfl, l, h1, h3⟩
  · cases h

theorem variantEntry_ub {rf : ℝ → ℝ} {j : Json} {w : Why} (h : variantEntry rf j = .ub w) :
    w = .oobRead ∧ ((Declares j "ctrv" ∧ ShortCovariance 5 j) ∨
      (Declares j "ctra" ∧ ShortCovariance 6 j)) := by
  obtain ⟨m, hm, h⟩ := model_ub h
  split at h
  · subst m
    rcases Outcome.bind_ub_iff.1 h with h | ⟨_, -, h⟩
    · obtain ⟨v, h1, h2⟩ := obj_ub (fun _ _ => ctrvState_ne_ub) h
      obtain ⟨rfl, l, rfl, h3⟩ := covFromJson_ub h2
      exact ⟨rfl, .inl ⟨hm, l, h1, h3⟩⟩
    · cases h
  · split at h
    · subst m
      rcases Outcome.bind_ub_iff.1 h with h | ⟨_, -, h⟩
      · obtain ⟨v, h1, h2⟩ := obj_ub (fun _ _ => ctraState_ne_ub) h
        obtain ⟨rfl, l, rfl, h3⟩ := covFromJson_ub h2
        exact ⟨rfl, .inr ⟨hm, l, h1, h3⟩⟩
      · cases h
    · cases h

end Mot
