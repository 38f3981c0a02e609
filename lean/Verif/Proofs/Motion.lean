import Verif.Model.Motion
import Verif.Proofs.Angle
import Verif.Spec.Motion
import Mathlib.Analysis.Calculus.MeanValue
import Mathlib.Tactic.Abel
/-!
# Lemmas about the motion models
-/

namespace Mot

open Real

theorem dblMin_pos : 0 < dblMin := by unfold dblMin; positivity

theorem unitsEq_zero_iff {ω : ℝ} : unitsEq ω 0 ↔ |ω| < dblMin := by
  unfold unitsEq
  rw [sub_zero, add_zero]
  constructor
  · rintro (h | h)
    · exfalso
      have h0 : 0 ≤ |ω| := abs_nonneg ω
      have : dblEpsilon ≤ 1 := by unfold dblEpsilon; norm_num
      nlinarith
    · exact h
  · exact Or.inr

theorem unitsEq_zero_zero : unitsEq 0 0 := by
  rw [unitsEq_zero_iff, abs_zero]; exact dblMin_pos

theorem admissible_iff {ω : ℝ} : Admissible ω ↔ (unitsEq ω 0 → ω = 0) := by
  rw [unitsEq_zero_iff]
  unfold Admissible
  change ω = 0 ∨ dblMin ≤ |ω| ↔ _
  constructor
  · rintro (h | h) h'
    · exact h
    · exact absurd h' (not_lt.2 h)
  · intro h
    by_cases hω : |ω| < dblMin
    · exact .inl (h hω)
    · exact .inr (not_lt.1 hω)

theorem ne_zero_of_not_unitsEq {ω : ℝ} (h : ¬ unitsEq ω 0) : ω ≠ 0 := by
  rintro rfl; exact h unitsEq_zero_zero

namespace CtrvState

/-- the yaw member is on the unit circle, as the class guarantees -/
def Valid (s : CtrvState) : Prop := s.yaw.Valid

theorem ext' {s t : CtrvState} (h1 : s.x = t.x) (h2 : s.y = t.y) (h3 : s.v = t.v)
    (h4 : s.yaw = t.yaw) (h5 : s.yawRate = t.yawRate) : s = t := by
  cases s; cases t; simp_all

theorem next_v (s : CtrvState) (t : ℝ) : (s.next t).v = s.v := rfl
theorem next_yawRate (s : CtrvState) (t : ℝ) : (s.next t).yawRate = s.yawRate := rfl
theorem next_yaw (s : CtrvState) (t : ℝ) :
    (s.next t).yaw = s.yaw.add (Angle.ofRad (s.yawRate * t)) := rfl

theorem next_valid (s : CtrvState) (t : ℝ) : (s.next t).Valid := Angle.valid_add _ _

theorem next_sameDir (s : CtrvState) (t : ℝ) :
    SameDir (s.next t).yaw.getAngle (s.yaw.getAngle + s.yawRate * t) :=
  Angle.sameDir_getAngle_add_ofRad _ _

theorem next_straight {s : CtrvState} (h : unitsEq s.yawRate 0) (t : ℝ) :
    (s.next t).x = s.x + s.v * cos s.yaw.getAngle * t ∧
    (s.next t).y = s.y + s.v * sin s.yaw.getAngle * t := by
  unfold next
  simp [h]

theorem next_turn {s : CtrvState} (h : ¬ unitsEq s.yawRate 0) (t : ℝ) :
    (s.next t).x = s.x + s.v / s.yawRate *
      (sin (s.yaw.getAngle + s.yawRate * t) - sin s.yaw.getAngle) ∧
    (s.next t).y = s.y - s.v / s.yawRate *
      (cos (s.yaw.getAngle + s.yawRate * t) - cos s.yaw.getAngle) := by
  unfold next
  simp [h]

end CtrvState

namespace CtraState

/-- the yaw member is on the unit circle, as the class guarantees -/
def Valid (s : CtraState) : Prop := s.yaw.Valid

theorem ext' {s t : CtraState} (h1 : s.x = t.x) (h2 : s.y = t.y) (h3 : s.v = t.v)
    (h4 : s.yaw = t.yaw) (h5 : s.yawRate = t.yawRate) (h6 : s.a = t.a) : s = t := by
  cases s; cases t; simp_all

theorem next_v (s : CtraState) (t : ℝ) : (s.next t).v = s.v + s.a * t := rfl
theorem next_yawRate (s : CtraState) (t : ℝ) : (s.next t).yawRate = s.yawRate := rfl
theorem next_a (s : CtraState) (t : ℝ) : (s.next t).a = s.a := rfl
theorem next_yaw (s : CtraState) (t : ℝ) :
    (s.next t).yaw = s.yaw.add (Angle.ofRad (s.yawRate * t)) := rfl

theorem next_valid (s : CtraState) (t : ℝ) : (s.next t).Valid := Angle.valid_add _ _

theorem next_sameDir (s : CtraState) (t : ℝ) :
    SameDir (s.next t).yaw.getAngle (s.yaw.getAngle + s.yawRate * t) :=
  Angle.sameDir_getAngle_add_ofRad _ _

theorem next_straight {s : CtraState} (h : unitsEq s.yawRate 0) (t : ℝ) :
    (s.next t).x = s.x + (s.v * t + s.a * t * t / 2) * cos s.yaw.getAngle ∧
    (s.next t).y = s.y + (s.v * t + s.a * t * t / 2) * sin s.yaw.getAngle := by
  unfold next
  simp [h]

theorem next_turn {s : CtraState} (h : ¬ unitsEq s.yawRate 0) (t : ℝ) :
    (s.next t).x = s.x + 1 / (s.yawRate * s.yawRate) *
      ((s.v + s.a * t) * s.yawRate * sin (s.yaw.getAngle + s.yawRate * t)
        + s.a * cos (s.yaw.getAngle + s.yawRate * t)
        - s.v * s.yawRate * sin s.yaw.getAngle - s.a * cos s.yaw.getAngle) ∧
    (s.next t).y = s.y + 1 / (s.yawRate * s.yawRate) *
      (-(s.v + s.a * t) * s.yawRate * cos (s.yaw.getAngle + s.yawRate * t)
        + s.a * sin (s.yaw.getAngle + s.yawRate * t)
        + s.v * s.yawRate * cos s.yaw.getAngle - s.a * sin s.yaw.getAngle) := by
  have hd := next_sameDir s t
  rw [← hd.sin_eq, ← hd.cos_eq]
  unfold next
  simp only [if_neg h, mul_one]
  exact ⟨trivial, trivial⟩

end CtraState

theorem CtrvState.next_zero (s : CtrvState) (hs : s.Valid) : s.next 0 = s := by
  have hy : (s.next 0).yaw = s.yaw := by
    rw [CtrvState.next_yaw, mul_zero]
    obtain ⟨x, hx⟩ := hs.exists
    rw [hx, Angle.add_ofRad, add_zero]
  by_cases h : unitsEq s.yawRate 0
  · obtain ⟨h1, h2⟩ := CtrvState.next_straight h 0
    exact CtrvState.ext' (by rw [h1]; ring) (by rw [h2]; ring) rfl hy rfl
  · obtain ⟨h1, h2⟩ := CtrvState.next_turn h 0
    exact CtrvState.ext' (by rw [h1, mul_zero, add_zero]; ring)
      (by rw [h2, mul_zero, add_zero]; ring) rfl hy rfl

theorem CtraState.next_zero (s : CtraState) (hs : s.Valid) : s.next 0 = s := by
  have hy : (s.next 0).yaw = s.yaw := by
    rw [CtraState.next_yaw, mul_zero]
    obtain ⟨x, hx⟩ := hs.exists
    rw [hx, Angle.add_ofRad, add_zero]
  have hv : (s.next 0).v = s.v := by rw [CtraState.next_v]; ring
  by_cases h : unitsEq s.yawRate 0
  · obtain ⟨h1, h2⟩ := CtraState.next_straight h 0
    exact CtraState.ext' (by rw [h1]; ring) (by rw [h2]; ring) hv hy rfl rfl
  · obtain ⟨h1, h2⟩ := CtraState.next_turn h 0
    exact CtraState.ext' (by rw [h1]; simp) (by rw [h2]; simp) hv hy rfl rfl

/-- motions with given data are unique -/
theorem TurnMotion.unique {x y v ψ ω a : ℝ} {X Y X' Y' : ℝ → ℝ}
    (h : TurnMotion x y v ψ ω a X Y) (h' : TurnMotion x y v ψ ω a X' Y') :
    X = X' ∧ Y = Y' := by
  have key : ∀ {f g f' : ℝ → ℝ}, f 0 = g 0 → (∀ t, HasDerivAt f (f' t) t) →
      (∀ t, HasDerivAt g (f' t) t) → f = g := by
    intro f g f' h0 hf hg
    have hd : ∀ t, HasDerivAt (fun t => f t - g t) 0 t := fun t => by
      have := (hf t).sub (hg t)
      rw [sub_self] at this
      exact this
    have hc := is_const_of_deriv_eq_zero (f := fun t => f t - g t)
      (fun t => (hd t).differentiableAt) (fun t => (hd t).deriv)
    funext t
    have := hc t 0
    simp only [h0, sub_self] at this
    linarith
  exact ⟨key (h.startX.trans h'.startX.symm) h.velX h'.velX,
    key (h.startY.trans h'.startY.symm) h.velY h'.velY⟩

end Mot
