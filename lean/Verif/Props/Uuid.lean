import Verif.Model.Uuid
/-!
# Properties of UUIDs (C67)
-/

namespace Mot.Props

open Mot

/-- first-difference characterisation of `<` on byte strings, independent of
`std::string::compare` -/
def BytesLt (a b : List (Fin 256)) : Prop :=
  (∃ c, c ≠ [] ∧ b = a ++ c) ∨ ∃ p x y s t, a = p ++ x :: s ∧ b = p ++ y :: t ∧ x < y

theorem strCompare_nil_nil : Uuid.strCompare [] [] = .eq := rfl
theorem strCompare_nil_cons (b) (bs) : Uuid.strCompare [] (b :: bs) = .lt := by
  simp [Uuid.strCompare, Uuid.memcmp]
theorem strCompare_cons_nil (a) (as) : Uuid.strCompare (a :: as) [] = .gt := by
  simp [Uuid.strCompare, Uuid.memcmp]
theorem strCompare_cons_cons (a b) (as bs) : Uuid.strCompare (a :: as) (b :: bs) =
    if a < b then .lt else if b < a then .gt else Uuid.strCompare as bs := by
  unfold Uuid.strCompare
  simp only [List.length_cons, Nat.add_min_add_right, Uuid.memcmp, Nat.add_lt_add_iff_right]
  by_cases h1 : a < b
  · simp only [if_pos h1]
  · by_cases h2 : b < a
    · simp only [if_neg h1, if_pos h2]
    · simp only [if_neg h1, if_neg h2]

theorem strCompare_spec (a b : List (Fin 256)) :
    (Uuid.strCompare a b = .lt ↔ a < b) ∧ (Uuid.strCompare a b = .eq ↔ a = b) ∧
    (Uuid.strCompare a b = .gt ↔ b < a) := by
  induction a generalizing b with
  | nil =>
    cases b with
    | nil => simp [strCompare_nil_nil]
    | cons b bs => simp [strCompare_nil_cons]
  | cons a as ih =>
    cases b with
    | nil => simp [strCompare_cons_nil]
    | cons b bs =>
      rw [strCompare_cons_cons, List.cons_lt_cons_iff, List.cons_lt_cons_iff]
      obtain ⟨h1, h2, h3⟩ := ih bs
      rcases lt_trichotomy a b with h | h | h
      · simp [h, h.ne, h.ne', not_lt_of_gt h]
      · subst h
        simp [h1, h2, h3]
      · simp [h, h.ne, h.ne', not_lt_of_gt h]

theorem lt_iff_bytesLt (a b : List (Fin 256)) : a < b ↔ BytesLt a b := by
  induction a generalizing b with
  | nil =>
    cases b with
    | nil => simp [BytesLt]
    | cons b bs => simp [BytesLt]
  | cons a as ih =>
    cases b with
    | nil => simp [BytesLt]
    | cons b bs =>
      rw [List.cons_lt_cons_iff, ih]
      constructor
      · rintro (h | ⟨rfl, h⟩)
        · exact .inr ⟨[], a, b, as, bs, rfl, rfl, h⟩
        · rcases h with ⟨c, hc, rfl⟩ | ⟨p, x, y, s, t, rfl, rfl, h⟩
          · exact .inl ⟨c, hc, rfl⟩
          · exact .inr ⟨a :: p, x, y, s, t, rfl, rfl, h⟩
      · rintro (⟨c, hc, h⟩ | ⟨p, x, y, s, t, h1, h2, h⟩)
        · cases h
          exact .inr ⟨rfl, .inl ⟨c, hc, rfl⟩⟩
        · cases p with
          | nil => cases h1; cases h2; exact .inl h
          | cons z p => cases h1; cases h2; exact .inr ⟨rfl, .inr ⟨p, x, y, s, t, rfl, rfl, h⟩⟩

/-- C67: `<` is the lexicographic order on bytes, `==` is equality of the strings, and
the other four operators agree with them. -/
theorem C67_operators (a b : Uuid) :
    (a.lt b = true ↔ BytesLt a.value b.value) ∧ (a.eq b = true ↔ a.value = b.value) ∧
    (a.gt b = true ↔ BytesLt b.value a.value) ∧
    (a.ne b = true ↔ ¬ a.eq b = true) ∧ (a.le b = true ↔ ¬ b.lt a = true) ∧
    (a.ge b = true ↔ ¬ a.lt b = true) := by
  obtain ⟨h1, h2, h3⟩ := strCompare_spec a.value b.value
  obtain ⟨h1', h2', h3'⟩ := strCompare_spec b.value a.value
  have hgl : a.gt b = true ↔ b.lt a = true := by
    unfold Uuid.gt Uuid.lt
    rw [beq_iff_eq, beq_iff_eq, h3, h1']
  refine ⟨?_, ?_, ?_, ?_, ?_, ?_⟩
  · unfold Uuid.lt; rw [beq_iff_eq, h1, lt_iff_bytesLt]
  · unfold Uuid.eq; rw [beq_iff_eq, h2]
  · unfold Uuid.gt; rw [beq_iff_eq, h3, lt_iff_bytesLt]
  · unfold Uuid.ne Uuid.eq; simp
  · rw [← hgl]; unfold Uuid.le Uuid.gt; simp
  · unfold Uuid.ge Uuid.lt; simp

/-- C67: `<` is a strict total order consistent with `==`; equal UUIDs have equal
hashes. -/
theorem C67_strict_total_order (a b c : Uuid) (h : List (Fin 256) → BitVec 64) :
    ¬ a.lt a = true ∧ (a.lt b = true → b.lt c = true → a.lt c = true) ∧
    (a.lt b = true ∨ a.eq b = true ∨ b.lt a = true) ∧
    (a.lt b = true → ¬ a.eq b = true ∧ ¬ b.lt a = true) ∧
    (a.eq b = true → Uuid.hash h a = Uuid.hash h b) := by
  have hlt : ∀ a b : Uuid, a.lt b = true ↔ a.value < b.value := fun a b => by
    unfold Uuid.lt; rw [beq_iff_eq, (strCompare_spec _ _).1]
  have heq : ∀ a b : Uuid, a.eq b = true ↔ a.value = b.value := fun a b => by
    unfold Uuid.eq; rw [beq_iff_eq, (strCompare_spec _ _).2.1]
  simp only [hlt, heq]
  refine ⟨lt_irrefl _, lt_trans, lt_trichotomy _ _, fun h => ⟨h.ne, not_lt_of_gt h⟩, fun he => ?_⟩
  unfold Uuid.hash; rw [he]

/-- C67: the hash depends on the whole string: a string hash without collisions gives a
UUID hash without collisions. -/
theorem C67_hash (h : List (Fin 256) → BitVec 64) (u v : Uuid)
    (hinj : h u.value = h v.value → u.value = v.value) :
    Uuid.hash h u = Uuid.hash h v ↔ u.eq v = true := by
  rw [(C67_operators u v).2.1]
  exact ⟨hinj, fun e => by unfold Uuid.hash; rw [e]⟩

/-- a hash that adds up the bytes tells "ab" from "a" -/
example : Uuid.hash (fun l => (l.map fun b => BitVec.ofNat 64 b.val).foldr (· + ·) 0) ⟨[97, 98]⟩ ≠
    Uuid.hash (fun l => (l.map fun b => BitVec.ofNat 64 b.val).foldr (· + ·) 0) ⟨[97]⟩ := by
  decide +kernel

/-- C67: the order used by the model's sorted containers is `operator<`. -/
theorem C67_container_order (a b : Uuid) : a < b ↔ a.lt b = true := by
  unfold Uuid.lt
  rw [beq_iff_eq, (strCompare_spec _ _).1]
  rfl

/-- a byte above 127 is larger than an ASCII character; a prefix is smaller -/
example : (⟨[97]⟩ : Uuid).lt ⟨[200]⟩ = true ∧ (⟨[97]⟩ : Uuid).lt ⟨[97, 0]⟩ = true ∧
    (⟨[98]⟩ : Uuid).lt ⟨[97, 255]⟩ = false := by decide +kernel

end Mot.Props
