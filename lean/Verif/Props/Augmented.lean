import Verif.Model.Augmented
import Verif.Props.Motion
import Verif.Props.Rounding
/-!
# Properties of process noise and augmented states (C75), in exact real arithmetic
-/

namespace Mot.Props

open Mot Real

/-! ## C75 -/

/-- C75 (CTRV): the seven entries of the vector are x, y, speed, yaw, yaw rate, linear and
angular acceleration noise, in this order. -/
theorem C75_ctrv_vector (w : Fin 7 → ℝ) (a : Augmented CtrvState) (ha : a = Augmented.ofVec w) :
    a.state.x = w 0 ∧ a.state.y = w 1 ∧ a.state.v = w 2 ∧ a.state.yawRate = w 4 ∧
    a.noise.lin = w 5 ∧ a.noise.ang = w 6 ∧
    SameDir a.state.yaw.getAngle (w 3) ∧ a.state.Valid := by
  subst ha
  exact ⟨rfl, rfl, rfl, rfl, rfl, rfl, Angle.sameDir_getAngle _, Angle.valid_ofRad _⟩

/-- C75 (CTRA): the eight entries of the vector are x, y, speed, yaw, yaw rate,
acceleration, linear and angular acceleration noise, in this order. -/
theorem C75_ctra_vector (w : Fin 8 → ℝ) (a : Augmented CtraState) (ha : a = Augmented.ofVec w) :
    a.state.x = w 0 ∧ a.state.y = w 1 ∧ a.state.v = w 2 ∧ a.state.yawRate = w 4 ∧
    a.state.a = w 5 ∧ a.noise.lin = w 6 ∧ a.noise.ang = w 7 ∧
    SameDir a.state.yaw.getAngle (w 3) ∧ a.state.Valid := by
  subst ha
  exact ⟨rfl, rfl, rfl, rfl, rfl, rfl, rfl, Angle.sameDir_getAngle _, Angle.valid_ofRad _⟩

theorem noise_add_sub (m n : ProcessNoise) : (m.add n).sub n = m ∧ (m.sub n).add n = m := by
  obtain ⟨a, b⟩ := m
  constructor <;> simp [ProcessNoise.add, ProcessNoise.sub]

/-- C75 (CTRV): adding and subtracting act entry by entry, the yaw modulo 2π, and undo each
other. -/
theorem C75_ctrv_add_sub (a b : Augmented CtrvState) :
    (∀ i, i ≠ 3 → (a.add b).state.toVec i = a.state.toVec i + b.state.toVec i) ∧
    SameDir ((a.add b).state.toVec 3) (a.state.toVec 3 + b.state.toVec 3) ∧
    (a.add b).noise.lin = a.noise.lin + b.noise.lin ∧
    (a.add b).noise.ang = a.noise.ang + b.noise.ang ∧
    (∀ i, i ≠ 3 → (a.sub b).state.toVec i = a.state.toVec i - b.state.toVec i) ∧
    SameDir ((a.sub b).state.toVec 3) (a.state.toVec 3 - b.state.toVec 3) ∧
    (a.sub b).noise.lin = a.noise.lin - b.noise.lin ∧
    (a.sub b).noise.ang = a.noise.ang - b.noise.ang ∧
    (a.state.Valid → (a.add b).sub b = a ∧ (a.sub b).add b = a) := by
  refine ⟨?_, Angle.sameDir_getAngle _, rfl, rfl, ?_, Angle.sameDir_getAngle _, rfl, rfl,
    fun h => ?_⟩
  · intro i hi
    fin_cases i <;> first | rfl | exact absurd rfl hi
  · intro i hi
    fin_cases i <;> first | rfl | exact absurd rfl hi
  · obtain ⟨s, m⟩ := a
    exact ⟨congrArg₂ Augmented.mk (C54_ctrv_add_sub s b.state h).1 (noise_add_sub m b.noise).1,
      congrArg₂ Augmented.mk (C54_ctrv_add_sub s b.state h).2 (noise_add_sub m b.noise).2⟩

/-- C75 (CTRA): adding and subtracting act entry by entry, the yaw modulo 2π, and undo each
other. -/
theorem C75_ctra_add_sub (a b : Augmented CtraState) :
    (∀ i, i ≠ 3 → (a.add b).state.toVec i = a.state.toVec i + b.state.toVec i) ∧
    SameDir ((a.add b).state.toVec 3) (a.state.toVec 3 + b.state.toVec 3) ∧
    (a.add b).noise.lin = a.noise.lin + b.noise.lin ∧
    (a.add b).noise.ang = a.noise.ang + b.noise.ang ∧
    (∀ i, i ≠ 3 → (a.sub b).state.toVec i = a.state.toVec i - b.state.toVec i) ∧
    SameDir ((a.sub b).state.toVec 3) (a.state.toVec 3 - b.state.toVec 3) ∧
    (a.sub b).noise.lin = a.noise.lin - b.noise.lin ∧
    (a.sub b).noise.ang = a.noise.ang - b.noise.ang ∧
    (a.state.Valid → (a.add b).sub b = a ∧ (a.sub b).add b = a) := by
  refine ⟨?_, Angle.sameDir_getAngle _, rfl, rfl, ?_, Angle.sameDir_getAngle _, rfl, rfl,
    fun h => ?_⟩
  · intro i hi
    fin_cases i <;> first | rfl | exact absurd rfl hi
  · intro i hi
    fin_cases i <;> first | rfl | exact absurd rfl hi
  · obtain ⟨s, m⟩ := a
    exact ⟨congrArg₂ Augmented.mk (C54_ctra_add_sub s b.state h).1 (noise_add_sub m b.noise).1,
      congrArg₂ Augmented.mk (C54_ctra_add_sub s b.state h).2 (noise_add_sub m b.noise).2⟩

theorem noise_eq_symm {m n : ProcessNoise} (h : m.eq n) : n.eq m :=
  ⟨unitsEq_symm h.1, unitsEq_symm h.2⟩

/-- C75: augmented states compare equal to themselves and symmetrically; equal ones have the
same yaw and noises that agree to a relative error of 2^-51 (or differ by less than the
smallest normal double); a noise that is off by more than that makes them unequal. -/
theorem C75_eq (a b : Augmented CtrvState) (c d : Augmented CtraState) :
    a.eq a ∧ (a.eq b → b.eq a) ∧ c.eq c ∧ (c.eq d → d.eq c) ∧
    (a.eq b → a.state.eq b.state ∧
      (|a.noise.lin - b.noise.lin| ≤ 1 / 2 ^ 51 * max |a.noise.lin| |b.noise.lin| ∨
        |a.noise.lin - b.noise.lin| < 1 / 2 ^ 1022) ∧
      (|a.noise.ang - b.noise.ang| ≤ 1 / 2 ^ 51 * max |a.noise.ang| |b.noise.ang| ∨
        |a.noise.ang - b.noise.ang| < 1 / 2 ^ 1022)) ∧
    (c.eq d → c.state.eq d.state ∧
      (|c.noise.lin - d.noise.lin| ≤ 1 / 2 ^ 51 * max |c.noise.lin| |d.noise.lin| ∨
        |c.noise.lin - d.noise.lin| < 1 / 2 ^ 1022) ∧
      (|c.noise.ang - d.noise.ang| ≤ 1 / 2 ^ 51 * max |c.noise.ang| |d.noise.ang| ∨
        |c.noise.ang - d.noise.ang| < 1 / 2 ^ 1022)) ∧
    (a.state.eq b.state → a.noise = b.noise → a.eq b) ∧
    (c.state.eq d.state → c.noise = d.noise → c.eq d) := by
  have hr : ∀ m : ProcessNoise, m.eq m := fun m => ⟨unitsEq_refl _, unitsEq_refl _⟩
  refine ⟨⟨(C71_eq_partial a.state a.state c.state c.state).1, hr _⟩,
    fun h => ⟨(C71_eq_partial a.state b.state c.state c.state).2.1 h.1, noise_eq_symm h.2⟩,
    ⟨(C71_eq_partial a.state a.state c.state c.state).2.2.1, hr _⟩,
    fun h => ⟨(C71_eq_partial a.state b.state c.state d.state).2.2.2.1 h.1, noise_eq_symm h.2⟩,
    fun h => ⟨h.1, close_of_unitsEq h.2.1, close_of_unitsEq h.2.2⟩,
    fun h => ⟨h.1, close_of_unitsEq h.2.1, close_of_unitsEq h.2.2⟩,
    fun h h' => ⟨h, h' ▸ hr _⟩, fun h h' => ⟨h, h' ▸ hr _⟩⟩

/-- C75: rounding an augmented state rounds the state and moves each noise to the nearest
multiple of 10^-d, at most half a unit away. -/
theorem C75_round (a : Augmented CtrvState) (c : Augmented CtraState) (d : ℕ) :
    (a.round d).state = a.state.round d ∧ (c.round d).state = c.state.round d ∧
    |(a.round d).noise.lin - a.noise.lin| ≤ 1 / 2 / 10 ^ d ∧
    |(a.round d).noise.ang - a.noise.ang| ≤ 1 / 2 / 10 ^ d ∧
    |(c.round d).noise.lin - c.noise.lin| ≤ 1 / 2 / 10 ^ d ∧
    |(c.round d).noise.ang - c.noise.ang| ≤ 1 / 2 / 10 ^ d ∧
    (∃ k l : ℤ, (a.round d).noise = ⟨k / 10 ^ d, l / 10 ^ d⟩) ∧
    (∃ k l : ℤ, (c.round d).noise = ⟨k / 10 ^ d, l / 10 ^ d⟩) := by
  have h : ∀ n : ProcessNoise, ∃ k l : ℤ, n.round d = ⟨k / 10 ^ d, l / 10 ^ d⟩ := by
    intro n
    obtain ⟨k, hk⟩ := (C66_nearest n.lin d).1
    obtain ⟨l, hl⟩ := (C66_nearest n.ang d).1
    exact ⟨k, l, by rw [ProcessNoise.round, hk, hl]⟩
  exact ⟨rfl, rfl, (C66_noise _ d).1, (C66_noise _ d).2.1, (C66_noise _ d).1, (C66_noise _ d).2.1,
    h _, h _⟩

/-- C75 (CTRV): the effects of two noises add up: the state predicted with the sum of the
noises is the state predicted with the first, shifted by what the second adds to the
noise-free prediction. -/
theorem C75_ctrv_superposition (s : CtrvState) (t : ℝ) (m n : ProcessNoise) :
    (∀ i, i ≠ 3 → (s.nextNoisy t (m.add n)).toVec i =
      (s.nextNoisy t m).toVec i + ((s.nextNoisy t n).toVec i - (s.next t).toVec i)) ∧
    SameDir ((s.nextNoisy t (m.add n)).toVec 3)
      ((s.nextNoisy t m).toVec 3 + ((s.nextNoisy t n).toVec 3 - (s.next t).toVec 3)) := by
  constructor
  · intro i hi
    fin_cases i
    · show (s.nextNoisy t (m.add n)).x = (s.nextNoisy t m).x + ((s.nextNoisy t n).x - (s.next t).x)
      simp only [CtrvState.nextNoisy, ProcessNoise.add]; ring
    · show (s.nextNoisy t (m.add n)).y = (s.nextNoisy t m).y + ((s.nextNoisy t n).y - (s.next t).y)
      simp only [CtrvState.nextNoisy, ProcessNoise.add]; ring
    · show (s.nextNoisy t (m.add n)).v = (s.nextNoisy t m).v + ((s.nextNoisy t n).v - (s.next t).v)
      simp only [CtrvState.nextNoisy, ProcessNoise.add]; ring
    · exact absurd rfl hi
    · show (s.nextNoisy t (m.add n)).yawRate =
        (s.nextNoisy t m).yawRate + ((s.nextNoisy t n).yawRate - (s.next t).yawRate)
      simp only [CtrvState.nextNoisy, ProcessNoise.add]; ring
  · have h := fun n : ProcessNoise =>
      Angle.sameDir_getAngle_add_ofRad (s.next t).yaw (1 / 2 * n.ang * t ^ 2)
    refine (h (m.add n)).trans (SameDir.symm
      (((h m).add ((h n).sub (SameDir.refl (s.next t).yaw.getAngle))).trans ?_))
    rw [show (s.next t).yaw.getAngle + 1 / 2 * m.ang * t ^ 2 +
      ((s.next t).yaw.getAngle + 1 / 2 * n.ang * t ^ 2 - (s.next t).yaw.getAngle) =
      (s.next t).yaw.getAngle + 1 / 2 * (m.add n).ang * t ^ 2 by
        simp only [ProcessNoise.add]; ring]
    exact SameDir.refl _

/-- C75 (CTRA): the effects of two noises add up. -/
theorem C75_ctra_superposition (s : CtraState) (t : ℝ) (m n : ProcessNoise) :
    (∀ i, i ≠ 3 → (s.nextNoisy t (m.add n)).toVec i =
      (s.nextNoisy t m).toVec i + ((s.nextNoisy t n).toVec i - (s.next t).toVec i)) ∧
    SameDir ((s.nextNoisy t (m.add n)).toVec 3)
      ((s.nextNoisy t m).toVec 3 + ((s.nextNoisy t n).toVec 3 - (s.next t).toVec 3)) := by
  constructor
  · intro i hi
    fin_cases i
    · show (s.nextNoisy t (m.add n)).x = (s.nextNoisy t m).x + ((s.nextNoisy t n).x - (s.next t).x)
      simp only [CtraState.nextNoisy, ProcessNoise.add]; ring
    · show (s.nextNoisy t (m.add n)).y = (s.nextNoisy t m).y + ((s.nextNoisy t n).y - (s.next t).y)
      simp only [CtraState.nextNoisy, ProcessNoise.add]; ring
    · show (s.nextNoisy t (m.add n)).v = (s.nextNoisy t m).v + ((s.nextNoisy t n).v - (s.next t).v)
      simp only [CtraState.nextNoisy, ProcessNoise.add]; ring
    · exact absurd rfl hi
    · show (s.nextNoisy t (m.add n)).yawRate =
        (s.nextNoisy t m).yawRate + ((s.nextNoisy t n).yawRate - (s.next t).yawRate)
      simp only [CtraState.nextNoisy, ProcessNoise.add]; ring
    · show (s.nextNoisy t (m.add n)).a = (s.nextNoisy t m).a + ((s.nextNoisy t n).a - (s.next t).a)
      simp only [CtraState.nextNoisy, ProcessNoise.add]; ring
  · have h := fun n : ProcessNoise =>
      Angle.sameDir_getAngle_add_ofRad (s.next t).yaw (1 / 2 * n.ang * t ^ 2)
    refine (h (m.add n)).trans (SameDir.symm
      (((h m).add ((h n).sub (SameDir.refl (s.next t).yaw.getAngle))).trans ?_))
    rw [show (s.next t).yaw.getAngle + 1 / 2 * m.ang * t ^ 2 +
      ((s.next t).yaw.getAngle + 1 / 2 * n.ang * t ^ 2 - (s.next t).yaw.getAngle) =
      (s.next t).yaw.getAngle + 1 / 2 * (m.add n).ang * t ^ 2 by
        simp only [ProcessNoise.add]; ring]
    exact SameDir.refl _

/-- a turning object with both noises -/
noncomputable def augEx : Augmented CtrvState := ⟨ctrvEx, ⟨1 / 2, -3⟩⟩

example : augEx.state.Valid ∧ (augEx.add augEx).noise.lin = 1 ∧ (augEx.sub augEx).noise.ang = 0 :=
  ⟨Angle.valid_ofRad _, by norm_num [augEx, Augmented.add, ProcessNoise.add],
    by norm_num [augEx, Augmented.sub, ProcessNoise.sub]⟩

example : ∃ b : Augmented CtrvState, b.state = augEx.state ∧ ¬ augEx.eq b := by
  refine ⟨⟨ctrvEx, ⟨1 / 2, 3⟩⟩, rfl, fun h => ?_⟩
  rcases ((C75_eq augEx _ ⟨ctraEx, ⟨0, 0⟩⟩ ⟨ctraEx, ⟨0, 0⟩⟩).2.2.2.2.1 h).2.2 with h | h
  · norm_num [augEx] at h
  · have h' : |(-3 : ℝ) - 3| < 1 / 2 ^ 1022 := h
    have : (1 : ℝ) / 2 ^ 1022 ≤ 1 := by
      rw [div_le_one (by positivity)]; exact one_le_pow₀ (by norm_num)
    exact absurd (h'.trans_le this) (by norm_num)

end Mot.Props
