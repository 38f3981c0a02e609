import Verif.Proofs.FloatEq
import Verif.Props.FloatMotion
/-!
# Comparison of states as it is computed (C104)
-/

namespace Mot.Props

open Mot Spec

/-- C104: two quantities compare equal only if both are numbers; every number compares equal to
itself, and the order does not matter. -/
theorem C104_basic (a b : FP) :
    (unitsEqF a b = true → (∃ q, a = .fin q) ∧ ∃ q, b = .fin q) ∧ unitsEqF a b = unitsEqF b a ∧
    (unitsEqF a a = true ↔ ∃ q, a = .fin q) :=
  ⟨unitsEqF_number, unitsEqF_comm a b, fun h => (unitsEqF_number h).1, by rintro ⟨q, rfl⟩; exact unitsEqF_self q⟩

/-- C104: two numbers compare equal exactly if their difference is smaller than 2⁻¹⁰²² or 2⁵² times
their difference is smaller than their rounded sum, or their sum overflows. -/
theorem C104_exact {a b : ℚ} (ha : IsDouble a) (hb : IsDouble b) :
    unitsEqF (.fin a) (.fin b) = true ↔ AlmostEqual a b := unitsEqF_iff ha hb

/-- C104: the tolerance: relative differences up to 2⁻⁵² compare equal, differences from 2⁻⁵¹ on do
not, unless they are below 2⁻¹⁰²² or the sum overflows. -/
theorem C104_tolerance {a b : ℚ} (ha : IsDouble a) (hb : IsDouble b) :
    (2 ^ 52 * |a - b| ≤ max |a| |b| → unitsEqF (.fin a) (.fin b) = true) ∧
    (unitsEqF (.fin a) (.fin b) = true →
      |a - b| < (2 : ℚ) ^ (-1022 : ℤ) ∨ 2 ^ 51 * |a - b| < max |a| |b| ∨
      (2 ^ 54 - 1) * (2 : ℚ) ^ (970 : ℤ) ≤ |a + b|) :=
  ⟨fun h => (unitsEqF_iff ha hb).2 (almostEqual_of_near ha hb h),
    fun h => almostEqual_near ha hb ((unitsEqF_iff ha hb).1 h)⟩

/-- C104: large numbers with the same sign compare equal, however different they are. -/
theorem C104_overflow {a b : ℚ} (ha : IsDouble a) (hb : IsDouble b)
    (h : (2 ^ 54 - 1) * (2 : ℚ) ^ (970 : ℤ) ≤ |a + b|) : unitsEqF (.fin a) (.fin b) = true := by
  rw [unitsEqF_iff ha hb, almostEqual_iff]
  right; right
  by_contra hcon
  exact absurd ((b64_overflow _).1 (not_le.1 hcon)) (not_lt.2 h)

/-- C104: numbers that compare equal as computed compare equal in exact arithmetic (C71), unless
the sum overflows. -/
theorem C104_sound {a b : ℚ} (ha : IsDouble a) (hb : IsDouble b)
    (hs : |a + b| < (2 ^ 54 - 1) * (2 : ℚ) ^ (970 : ℤ)) (h : unitsEqF (.fin a) (.fin b) = true) :
    unitsEq (a : ℝ) b := almostEqual_sound ha hb ((unitsEqF_iff ha hb).1 h) hs

/-- C104: the converse fails: 3·2⁵¹ + 2 and 3·2⁵¹ − 1 compare equal in exact arithmetic only. -/
theorem C104_not_exact : ∃ a b : ℚ, IsDouble a ∧ IsDouble b ∧ unitsEq (a : ℝ) b ∧
    unitsEqF (.fin a) (.fin b) = false := by
  refine ⟨3 * 2 ^ 51 + 2, 3 * 2 ^ 51 - 1, ⟨3 * 2 ^ 51 + 2, 0, ⟨by decide, by decide, .inl (by decide)⟩,
    by norm_num, ?_⟩, ⟨3 * 2 ^ 51 - 1, 0, ⟨by decide, by decide, .inl (by decide)⟩, by norm_num, ?_⟩,
    .inl ?_, by decide +kernel⟩
  · refine lt_trans (b := (2 : ℚ) ^ (100 : ℤ)) (by norm_num [abs_of_pos]) ?_
    exact zpow_lt_zpow_right₀ (by norm_num) (by norm_num)
  · refine lt_trans (b := (2 : ℚ) ^ (100 : ℤ)) (by norm_num [abs_of_pos]) ?_
    exact zpow_lt_zpow_right₀ (by norm_num) (by norm_num)
  · unfold dblEpsilon
    push_cast
    norm_num [abs_of_pos]

/-! ### Everything is linked -/

theorem isDouble_grid {k e : ℤ} (hk : |k| ≤ 2 ^ 53) (he : -1074 ≤ e)
    (hb : |(k : ℚ) * (2 : ℚ) ^ e| < (2 : ℚ) ^ (1024 : ℤ)) : IsDouble (k * (2 : ℚ) ^ e) := by
  have hr : binary64.round (k * (2 : ℚ) ^ e) = k * (2 : ℚ) ^ e := by
    rcases hk.lt_or_eq with h | h
    · exact binary64.round_exact h he
    · have e1 : ∀ s : ℤ, |s| = 1 → k = s * 2 ^ 53 → binary64.round (k * (2 : ℚ) ^ e) = k * (2 : ℚ) ^ e := by
        intro s hs hks
        have := binary64.round_exact (m := s * 2 ^ 52) (j := e + 1) (by rw [abs_mul, hs]; decide)
          (le_trans he (by omega))
        have e2 : (k : ℚ) * (2 : ℚ) ^ e = ((s * 2 ^ 52 : ℤ) : ℚ) * (2 : ℚ) ^ (e + 1) := by
          rw [hks, zpow_add_one₀ (by norm_num)]
          push_cast
          ring
        rwa [← e2] at this
      rcases abs_choice k with hc | hc
      · exact e1 1 (by decide) (by omega)
      · exact e1 (-1) (by decide) (by omega)
  rw [← hr] at hb ⊢
  exact isDouble_round hb

/-- numbers that compare equal step by step -/
abbrev LinkedNumbers (a b : ℚ) : Prop :=
  Relation.ReflTransGen (fun a b => IsDouble a ∧ IsDouble b ∧ AlmostEqual a b) a b

theorem link_step {k : ℕ} {e : ℤ} (hk : k + 1 ≤ 2 ^ 53) (he : -1074 ≤ e)
    (hc : 2 ^ 52 ≤ k + 1 ∨ e = -1074)
    (hb : ((k + 1 : ℕ) : ℚ) * (2 : ℚ) ^ e < (2 : ℚ) ^ (1024 : ℤ)) :
    IsDouble (k * (2 : ℚ) ^ e) ∧ IsDouble ((k + 1 : ℕ) * (2 : ℚ) ^ e) ∧
    AlmostEqual (k * (2 : ℚ) ^ e) ((k + 1 : ℕ) * (2 : ℚ) ^ e) := by
  have hp := Fmt.two_zpow_pos e
  have hle : (k : ℚ) * (2 : ℚ) ^ e ≤ ((k + 1 : ℕ) : ℚ) * (2 : ℚ) ^ e := by
    rw [mul_le_mul_iff_left₀ hp]; push_cast; linarith
  have h1 : IsDouble (((k : ℤ) : ℚ) * (2 : ℚ) ^ e) := isDouble_grid (by rw [abs_of_nonneg (by omega)]; omega) he (by
    rw [Int.cast_natCast, abs_of_nonneg (mul_nonneg (Nat.cast_nonneg k) hp.le)]; exact hle.trans_lt hb)
  have h2 : IsDouble ((((k : ℤ) + 1 : ℤ) : ℚ) * (2 : ℚ) ^ e) := isDouble_grid (by rw [abs_of_nonneg (by omega)]; omega) he (by
    have : (((k : ℤ) + 1 : ℤ) : ℚ) = ((k + 1 : ℕ) : ℚ) := by push_cast; rfl
    rw [this, abs_of_nonneg (mul_nonneg (Nat.cast_nonneg _) hp.le)]
    exact hb)
  have h3 := almostEqual_next (m := k) (e := e) (by omega) h1 h2
  have : (((k : ℤ) + 1 : ℤ) : ℚ) = ((k + 1 : ℕ) : ℚ) := by push_cast; rfl
  rw [this] at h2 h3
  rw [Int.cast_natCast] at h1 h3
  exact ⟨h1, h2, h3⟩

theorem linked_zero (n : ℕ) : ∀ k : ℕ, k ≤ 2 ^ 53 →
    (k : ℚ) * (2 : ℚ) ^ ((n : ℤ) - 1074) < (2 : ℚ) ^ (1024 : ℤ) →
    LinkedNumbers 0 (k * (2 : ℚ) ^ ((n : ℤ) - 1074)) := by
  have hle : ∀ (k : ℕ) (e : ℤ), (k : ℚ) * (2 : ℚ) ^ e ≤ ((k + 1 : ℕ) : ℚ) * (2 : ℚ) ^ e := by
    intro k e
    rw [mul_le_mul_iff_left₀ (Fmt.two_zpow_pos e)]; push_cast; linarith
  induction n with
  | zero =>
    intro k
    induction k with
    | zero => intro _ _; rw [Nat.cast_zero, zero_mul]
    | succ k ih =>
      intro hk hb
      exact (ih (by omega) ((hle _ _).trans_lt hb)).tail (link_step hk (by simp) (.inr (by simp)) hb)
  | succ n ih =>
    intro k
    induction k with
    | zero => intro _ _; rw [Nat.cast_zero, zero_mul]
    | succ k ihk =>
      intro hk hb
      by_cases hc : k + 1 ≤ 2 ^ 52
      · have e1 : ((k + 1 : ℕ) : ℚ) * (2 : ℚ) ^ (((n + 1 : ℕ) : ℤ) - 1074) =
            ((2 * (k + 1) : ℕ) : ℚ) * (2 : ℚ) ^ ((n : ℤ) - 1074) := by
          rw [show (((n + 1 : ℕ) : ℤ) - 1074) = ((n : ℤ) - 1074) + 1 by push_cast; ring,
            zpow_add_one₀ (by norm_num)]
          push_cast
          ring
        rw [e1] at hb ⊢
        exact ih _ (by omega) hb
      · exact (ihk (by omega) ((hle _ _).trans_lt hb)).tail
          (link_step hk (by push_cast; omega) (.inl (by omega)) hb)

theorem linked_symm {a b : ℚ} (h : LinkedNumbers a b) : LinkedNumbers b a := by
  induction h with
  | refl => exact .refl
  | tail _ hst ih =>
    obtain ⟨hx, hy, h⟩ := hst
    refine Relation.ReflTransGen.head ⟨hy, hx, ?_⟩ ih
    rw [← unitsEqF_iff hy hx, unitsEqF_comm, unitsEqF_iff hx hy]
    exact h

theorem linked_neg {a b : ℚ} (h : LinkedNumbers a b) : LinkedNumbers (-a) (-b) := by
  induction h with
  | refl => exact .refl
  | @tail x y _ hst ih =>
    obtain ⟨hx, hy, h⟩ := hst
    refine ih.tail ⟨hx.neg, hy.neg, ?_⟩
    rw [almostEqual_iff] at h ⊢
    rwa [← neg_add, show -x - -y = -(x - y) by ring, abs_neg, abs_neg]

theorem lift_link {S : Type} {p : S → Prop} {eq : S → S → Bool} (f : ℚ → S)
    (hf : ∀ a b, IsDouble a → IsDouble b → AlmostEqual a b → p (f a) ∧ p (f b) ∧ eq (f a) (f b) = true)
    {a b : ℚ} (h : LinkedNumbers a b) : Linked p eq (f a) (f b) := by
  induction h with
  | refl => exact .refl
  | tail _ hst ih => exact Relation.ReflTransGen.tail ih (hf _ _ hst.1 hst.2.1 hst.2.2)

/-- any two numbers are linked -/
theorem linked_numbers {a b : ℚ} (ha : IsDouble a) (hb : IsDouble b) : LinkedNumbers a b := by
  have key : ∀ x : ℚ, IsDouble x → LinkedNumbers 0 x := by
    rintro x ⟨m, e, ⟨hm, he, -⟩, rfl, hlt⟩
    rw [abs_mul, abs_of_pos (Fmt.two_zpow_pos e)] at hlt
    have h := linked_zero (e + 1074).toNat m.natAbs (by rw [abs_lt] at hm; omega)
    rw [show (((e + 1074).toNat : ℤ) - 1074) = e by omega] at h
    have hn : ((m.natAbs : ℕ) : ℚ) = |(m : ℚ)| := by
      rw [Nat.cast_natAbs, Int.cast_abs]
    rw [hn] at h
    have h := h hlt
    rcases abs_choice (m : ℚ) with hc | hc
    · rwa [hc] at h
    · rw [hc] at h
      have := linked_neg h
      rwa [neg_zero, neg_mul, neg_neg] at this
  exact (linked_symm (key a ha)).trans (key b hb)

/-- C104: comparison is as far from transitive as can be: from any number one can get to any other by
finitely many steps between numbers that compare equal. -/
theorem C104_linked {a b : ℚ} (ha : IsDouble a) (hb : IsDouble b) :
    Linked IsNumber unitsEqF (.fin a) (.fin b) := by
  refine lift_link FP.fin (fun x y hx hy h => ?_) (linked_numbers ha hb)
  exact ⟨⟨x, hx, rfl⟩, ⟨y, hy, rfl⟩, (unitsEqF_iff hx hy).2 h⟩

/-! ### States -/

theorem FP.eq_iff (a b : FP) : FP.eq a b = true ↔ a = b ∧ a ≠ .nan := by
  cases a <;> cases b <;> simp [FP.eq]

theorem angleEqF_iff (a b : FP × FP) : angleEqF a b = true ↔ a = b ∧ a.1 ≠ .nan ∧ a.2 ≠ .nan := by
  unfold angleEqF
  rw [Bool.and_eq_true, FP.eq_iff, FP.eq_iff, Prod.ext_iff]
  tauto

section
variable {m : Libm} {value : m.Ang → FP × FP}

/-- C104: states compare equal exactly if their components do and the stored cosines and sines of
their headings are the same and not NaN; the comparison is symmetric, and a state compares equal to
itself exactly if its components are numbers and its heading has no NaN. -/
theorem C104_states :
    (∀ s t : CtrvStateF m, s.eqF value t = true ↔ unitsEqF s.x t.x = true ∧ unitsEqF s.y t.y = true ∧
      unitsEqF s.v t.v = true ∧ unitsEqF s.yawRate t.yawRate = true ∧ value s.yaw = value t.yaw ∧
      (value s.yaw).1 ≠ .nan ∧ (value s.yaw).2 ≠ .nan) ∧
    (∀ s t : CtraStateF m, s.eqF value t = true ↔ unitsEqF s.x t.x = true ∧ unitsEqF s.y t.y = true ∧
      unitsEqF s.v t.v = true ∧ unitsEqF s.yawRate t.yawRate = true ∧ unitsEqF s.a t.a = true ∧
      value s.yaw = value t.yaw ∧ (value s.yaw).1 ≠ .nan ∧ (value s.yaw).2 ≠ .nan) ∧
    (∀ s t : CtrvStateF m, s.eqF value t = t.eqF value s) ∧
    (∀ s t : CtraStateF m, s.eqF value t = t.eqF value s) ∧
    (∀ s : CtrvStateF m, s.eqF value s = true ↔ (∃ q, s.x = .fin q) ∧ (∃ q, s.y = .fin q) ∧
      (∃ q, s.v = .fin q) ∧ (∃ q, s.yawRate = .fin q) ∧ (value s.yaw).1 ≠ .nan ∧ (value s.yaw).2 ≠ .nan) ∧
    (∀ s : CtraStateF m, s.eqF value s = true ↔ (∃ q, s.x = .fin q) ∧ (∃ q, s.y = .fin q) ∧
      (∃ q, s.v = .fin q) ∧ (∃ q, s.yawRate = .fin q) ∧ (∃ q, s.a = .fin q) ∧
      (value s.yaw).1 ≠ .nan ∧ (value s.yaw).2 ≠ .nan) := by
  have h1 : ∀ s t : CtrvStateF m, s.eqF value t = true ↔ unitsEqF s.x t.x = true ∧
      unitsEqF s.y t.y = true ∧ unitsEqF s.v t.v = true ∧ unitsEqF s.yawRate t.yawRate = true ∧
      value s.yaw = value t.yaw ∧ (value s.yaw).1 ≠ .nan ∧ (value s.yaw).2 ≠ .nan := by
    intro s t
    unfold CtrvStateF.eqF
    simp only [Bool.and_eq_true, angleEqF_iff]
    tauto
  have h2 : ∀ s t : CtraStateF m, s.eqF value t = true ↔ unitsEqF s.x t.x = true ∧
      unitsEqF s.y t.y = true ∧ unitsEqF s.v t.v = true ∧ unitsEqF s.yawRate t.yawRate = true ∧
      unitsEqF s.a t.a = true ∧ value s.yaw = value t.yaw ∧ (value s.yaw).1 ≠ .nan ∧
      (value s.yaw).2 ≠ .nan := by
    intro s t
    unfold CtraStateF.eqF
    simp only [Bool.and_eq_true, angleEqF_iff]
    tauto
  have ha : ∀ a b : FP × FP, angleEqF a b = angleEqF b a := by
    intro a b
    rw [Bool.eq_iff_iff, angleEqF_iff, angleEqF_iff]
    constructor <;> · rintro ⟨rfl, h⟩; exact ⟨rfl, h⟩
  refine ⟨h1, h2, fun s t => ?_, fun s t => ?_, fun s => ?_, fun s => ?_⟩
  · unfold CtrvStateF.eqF
    rw [unitsEqF_comm s.x, unitsEqF_comm s.y, unitsEqF_comm s.v, unitsEqF_comm s.yawRate, ha]
  · unfold CtraStateF.eqF
    rw [unitsEqF_comm s.x, unitsEqF_comm s.y, unitsEqF_comm s.v, unitsEqF_comm s.yawRate,
      unitsEqF_comm s.a, ha]
  · rw [h1]
    simp only [(C104_basic _ .nan).2.2, true_and]
  · rw [h2]
    simp only [(C104_basic _ .nan).2.2, true_and]

/-- C104: any two states with the same heading whose components are numbers are linked by steps
between states that compare equal. -/
theorem C104_states_linked :
    (∀ s t : CtrvStateF m, CtrvNumbers s → CtrvNumbers t → value s.yaw = value t.yaw →
      (value s.yaw).1 ≠ .nan → (value s.yaw).2 ≠ .nan → Linked CtrvNumbers (CtrvStateF.eqF value) s t) ∧
    (∀ s t : CtraStateF m, CtraNumbers s → CtraNumbers t → value s.yaw = value t.yaw →
      (value s.yaw).1 ≠ .nan → (value s.yaw).2 ≠ .nan → Linked CtraNumbers (CtraStateF.eqF value) s t) := by
  constructor
  · rintro ⟨x, y, v, w, r⟩ ⟨x', y', v', w', r'⟩ hs ht hyaw n1 n2
    obtain ⟨⟨qx, dx, rfl⟩, ⟨qy, dy, rfl⟩, ⟨qv, dv, rfl⟩, ⟨qr, dr, rfl⟩⟩ := hs
    obtain ⟨⟨qx', dx', rfl⟩, ⟨qy', dy', rfl⟩, ⟨qv', dv', rfl⟩, ⟨qr', dr', rfl⟩⟩ := ht
    have self : ∀ q, unitsEqF (.fin q) (.fin q) = true := unitsEqF_self
    have num : ∀ {q}, IsDouble q → IsNumber (.fin q) := fun h => ⟨_, h, rfl⟩
    have s1 : Linked CtrvNumbers (CtrvStateF.eqF value) ⟨.fin qx, .fin qy, .fin qv, w, .fin qr⟩
        ⟨.fin qx', .fin qy, .fin qv, w, .fin qr⟩ :=
      lift_link (fun q => (⟨.fin q, .fin qy, .fin qv, w, .fin qr⟩ : CtrvStateF m))
        (fun a b da db h => ⟨⟨num da, num dy, num dv, num dr⟩, ⟨num db, num dy, num dv, num dr⟩,
          (C104_states.1 _ _).2 ⟨(unitsEqF_iff da db).2 h, self _, self _, self _, rfl, n1, n2⟩⟩)
        (linked_numbers dx dx')
    have s2 : Linked CtrvNumbers (CtrvStateF.eqF value) ⟨.fin qx', .fin qy, .fin qv, w, .fin qr⟩
        ⟨.fin qx', .fin qy', .fin qv, w, .fin qr⟩ :=
      lift_link (fun q => (⟨.fin qx', .fin q, .fin qv, w, .fin qr⟩ : CtrvStateF m))
        (fun a b da db h => ⟨⟨num dx', num da, num dv, num dr⟩, ⟨num dx', num db, num dv, num dr⟩,
          (C104_states.1 _ _).2 ⟨self _, (unitsEqF_iff da db).2 h, self _, self _, rfl, n1, n2⟩⟩)
        (linked_numbers dy dy')
    have s3 : Linked CtrvNumbers (CtrvStateF.eqF value) ⟨.fin qx', .fin qy', .fin qv, w, .fin qr⟩
        ⟨.fin qx', .fin qy', .fin qv', w, .fin qr⟩ :=
      lift_link (fun q => (⟨.fin qx', .fin qy', .fin q, w, .fin qr⟩ : CtrvStateF m))
        (fun a b da db h => ⟨⟨num dx', num dy', num da, num dr⟩, ⟨num dx', num dy', num db, num dr⟩,
          (C104_states.1 _ _).2 ⟨self _, self _, (unitsEqF_iff da db).2 h, self _, rfl, n1, n2⟩⟩)
        (linked_numbers dv dv')
    have s4 : Linked CtrvNumbers (CtrvStateF.eqF value) ⟨.fin qx', .fin qy', .fin qv', w, .fin qr⟩
        ⟨.fin qx', .fin qy', .fin qv', w, .fin qr'⟩ :=
      lift_link (fun q => (⟨.fin qx', .fin qy', .fin qv', w, .fin q⟩ : CtrvStateF m))
        (fun a b da db h => ⟨⟨num dx', num dy', num dv', num da⟩, ⟨num dx', num dy', num dv', num db⟩,
          (C104_states.1 _ _).2 ⟨self _, self _, self _, (unitsEqF_iff da db).2 h, rfl, n1, n2⟩⟩)
        (linked_numbers dr dr')
    refine (((s1.trans s2).trans s3).trans s4).tail ⟨⟨num dx', num dy', num dv', num dr'⟩,
      ⟨num dx', num dy', num dv', num dr'⟩, (C104_states.1 _ _).2
        ⟨self _, self _, self _, self _, hyaw, n1, n2⟩⟩
  · rintro ⟨x, y, v, w, r, a⟩ ⟨x', y', v', w', r', a'⟩ hs ht hyaw n1 n2
    obtain ⟨⟨qx, dx, rfl⟩, ⟨qy, dy, rfl⟩, ⟨qv, dv, rfl⟩, ⟨qr, dr, rfl⟩, ⟨qa, da, rfl⟩⟩ := hs
    obtain ⟨⟨qx', dx', rfl⟩, ⟨qy', dy', rfl⟩, ⟨qv', dv', rfl⟩, ⟨qr', dr', rfl⟩, ⟨qa', da', rfl⟩⟩ := ht
    have self : ∀ q, unitsEqF (.fin q) (.fin q) = true := unitsEqF_self
    have num : ∀ {q}, IsDouble q → IsNumber (.fin q) := fun h => ⟨_, h, rfl⟩
    have s1 : Linked CtraNumbers (CtraStateF.eqF value) ⟨.fin qx, .fin qy, .fin qv, w, .fin qr, .fin qa⟩
        ⟨.fin qx', .fin qy, .fin qv, w, .fin qr, .fin qa⟩ :=
      lift_link
        (fun q => (⟨.fin q, .fin qy, .fin qv, w, .fin qr, .fin qa⟩ : CtraStateF m))
        (fun a b d d' h => ⟨⟨num d, num dy, num dv, num dr, num da⟩,
          ⟨num d', num dy, num dv, num dr, num da⟩, (C104_states.2.1 _ _).2
          ⟨(unitsEqF_iff d d').2 h, self _, self _, self _, self _, rfl, n1, n2⟩⟩)
        (linked_numbers dx dx')
    have s2 : Linked CtraNumbers (CtraStateF.eqF value) ⟨.fin qx', .fin qy, .fin qv, w, .fin qr, .fin qa⟩
        ⟨.fin qx', .fin qy', .fin qv, w, .fin qr, .fin qa⟩ :=
      lift_link
        (fun q => (⟨.fin qx', .fin q, .fin qv, w, .fin qr, .fin qa⟩ : CtraStateF m))
        (fun a b d d' h => ⟨⟨num dx', num d, num dv, num dr, num da⟩,
          ⟨num dx', num d', num dv, num dr, num da⟩, (C104_states.2.1 _ _).2
          ⟨self _, (unitsEqF_iff d d').2 h, self _, self _, self _, rfl, n1, n2⟩⟩)
        (linked_numbers dy dy')
    have s3 : Linked CtraNumbers (CtraStateF.eqF value) ⟨.fin qx', .fin qy', .fin qv, w, .fin qr, .fin qa⟩
        ⟨.fin qx', .fin qy', .fin qv', w, .fin qr, .fin qa⟩ :=
      lift_link
        (fun q => (⟨.fin qx', .fin qy', .fin q, w, .fin qr, .fin qa⟩ : CtraStateF m))
        (fun a b d d' h => ⟨⟨num dx', num dy', num d, num dr, num da⟩,
          ⟨num dx', num dy', num d', num dr, num da⟩, (C104_states.2.1 _ _).2
          ⟨self _, self _, (unitsEqF_iff d d').2 h, self _, self _, rfl, n1, n2⟩⟩)
        (linked_numbers dv dv')
    have s4 : Linked CtraNumbers (CtraStateF.eqF value) ⟨.fin qx', .fin qy', .fin qv', w, .fin qr, .fin qa⟩
        ⟨.fin qx', .fin qy', .fin qv', w, .fin qr', .fin qa⟩ :=
      lift_link
        (fun q => (⟨.fin qx', .fin qy', .fin qv', w, .fin q, .fin qa⟩ : CtraStateF m))
        (fun a b d d' h => ⟨⟨num dx', num dy', num dv', num d, num da⟩,
          ⟨num dx', num dy', num dv', num d', num da⟩, (C104_states.2.1 _ _).2
          ⟨self _, self _, self _, (unitsEqF_iff d d').2 h, self _, rfl, n1, n2⟩⟩)
        (linked_numbers dr dr')
    have s5 : Linked CtraNumbers (CtraStateF.eqF value) ⟨.fin qx', .fin qy', .fin qv', w, .fin qr', .fin qa⟩
        ⟨.fin qx', .fin qy', .fin qv', w, .fin qr', .fin qa'⟩ :=
      lift_link
        (fun q => (⟨.fin qx', .fin qy', .fin qv', w, .fin qr', .fin q⟩ : CtraStateF m))
        (fun a b d d' h => ⟨⟨num dx', num dy', num dv', num dr', num d⟩,
          ⟨num dx', num dy', num dv', num dr', num d'⟩, (C104_states.2.1 _ _).2
          ⟨self _, self _, self _, self _, (unitsEqF_iff d d').2 h, rfl, n1, n2⟩⟩)
        (linked_numbers da da')
    refine ((((s1.trans s2).trans s3).trans s4).trans s5).tail
      ⟨⟨num dx', num dy', num dv', num dr', num da'⟩,
      ⟨num dx', num dy', num dv', num dr', num da'⟩, (C104_states.2.1 _ _).2
        ⟨self _, self _, self _, self _, self _, hyaw, n1, n2⟩⟩

theorem Linked.const {S H : Type} {p : S → Prop} {eq : S → S → Bool} {h : S → H}
    (hh : ∀ s t, eq s t = true → h s = h t) {s t : S} (hl : Linked p eq s t) : h s = h t := by
  induction hl with
  | refl => rfl
  | tail _ hst ih => exact ih.trans (hh _ _ hst.2.2)

/-- C104: the comparison is documented to support unordered containers, which need equal hashes for
what compares equal.  Every hash function that does so gives the same value to all states with the
same heading. -/
theorem C104_no_hash {H : Type} :
    (∀ h : CtrvStateF m → H, (∀ s t, s.eqF value t = true → h s = h t) →
      ∀ s t, CtrvNumbers s → CtrvNumbers t → value s.yaw = value t.yaw → (value s.yaw).1 ≠ .nan →
      (value s.yaw).2 ≠ .nan → h s = h t) ∧
    (∀ h : CtraStateF m → H, (∀ s t, s.eqF value t = true → h s = h t) →
      ∀ s t, CtraNumbers s → CtraNumbers t → value s.yaw = value t.yaw → (value s.yaw).1 ≠ .nan →
      (value s.yaw).2 ≠ .nan → h s = h t) :=
  ⟨fun _ hh s t hs ht e n1 n2 => Linked.const hh (C104_states_linked.1 s t hs ht e n1 n2),
    fun _ hh s t hs ht e n1 n2 => Linked.const hh (C104_states_linked.2 s t hs ht e n1 n2)⟩

/-- C104: the same for augmented states: they compare equal exactly if the states do and both parts of
the noise. -/
theorem C104_augmented {S : Type} (eqS : S → S → Bool) (l r : S × ProcessNoiseF) :
    augmentedEqF eqS l r = true ↔ eqS l.1 r.1 = true ∧ unitsEqF l.2.lin r.2.lin = true ∧
      unitsEqF l.2.ang r.2.ang = true := by
  unfold augmentedEqF ProcessNoiseF.eqF
  simp only [Bool.and_eq_true]

end

/-! ### Examples -/

/-- ten metres and a nanometre more are different; the next two `double`s after ten compare equal, the
third does not -/
example : unitsEqF (.fin 10) (.fin (10 + 1 / 2 ^ 30)) = false ∧
    unitsEqF (.fin 10) (.fin (10 + 2 / 2 ^ 49)) = true ∧
    unitsEqF (.fin 10) (.fin (10 + 3 / 2 ^ 49)) = false := by decide +kernel

/-- 9·10³⁰⁷ and 1.6·10³⁰⁸ compare equal, since their sum overflows -/
example : unitsEqF (.fin (2 ^ 1023)) (.fin (15 / 8 * 2 ^ 1023)) = true := by decide +kernel

/-- infinities and NaN compare equal to nothing -/
example : unitsEqF (.inf false) (.inf false) = false ∧ unitsEqF .nan .nan = false := by decide +kernel

/-- states with numbers and the heading 0 -/
example : ∃ (m : Libm) (value : m.Ang → FP × FP) (s t : CtrvStateF m), CtrvNumbers s ∧ CtrvNumbers t ∧
    value s.yaw = value t.yaw ∧ (value s.yaw).1 ≠ .nan ∧ (value s.yaw).2 ≠ .nan ∧
    s.eqF value t = false ∧ s.eqF value s = true := by
  have h0 : IsNumber (.fin 0) := ⟨0, isDouble_zero, rfl⟩
  have h1 : IsNumber (.fin 1) := ⟨1, by exact_mod_cast isDouble_nat (n := 1) (by norm_num), rfl⟩
  refine ⟨⟨FP × FP, id, id, fun a => (.fin 1, a), fun z => z.2⟩, id,
    ⟨.fin 0, .fin 0, .fin 0, (.fin 1, .fin 0), .fin 0⟩, ⟨.fin 1, .fin 0, .fin 0, (.fin 1, .fin 0), .fin 0⟩,
    ⟨h0, h0, h0, h0⟩, ⟨h1, h0, h0, h0⟩, rfl, by simp, by simp, by decide +kernel, by decide +kernel⟩

end Mot.Props
