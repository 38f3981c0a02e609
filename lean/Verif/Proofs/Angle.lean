import Verif.Model.Angle
import Verif.Spec.Circle
import Mathlib.Analysis.SpecialFunctions.Trigonometric.Angle
import Mathlib.Tactic.Linarith
import Mathlib.Tactic.Ring
import Mathlib.Tactic.FieldSimp
import Mathlib.Tactic.NormNum
/-!
# Lemmas about angles
-/

namespace Mot

open Real

namespace SameDir

theorem refl (x : ℝ) : SameDir x x := ⟨0, by simp⟩

theorem symm {x y : ℝ} (h : SameDir x y) : SameDir y x := by
  obtain ⟨k, h⟩ := h
  exact ⟨-k, by push_cast; linarith⟩

theorem trans {x y z : ℝ} (h : SameDir x y) (h' : SameDir y z) : SameDir x z := by
  obtain ⟨k, h⟩ := h
  obtain ⟨l, h'⟩ := h'
  exact ⟨k + l, by push_cast; linarith⟩

theorem add {x y x' y' : ℝ} (h : SameDir x y) (h' : SameDir x' y') :
    SameDir (x + x') (y + y') := by
  obtain ⟨k, h⟩ := h
  obtain ⟨l, h'⟩ := h'
  exact ⟨k + l, by push_cast; linarith⟩

theorem sub {x y x' y' : ℝ} (h : SameDir x y) (h' : SameDir x' y') :
    SameDir (x - x') (y - y') := by
  obtain ⟨k, h⟩ := h
  obtain ⟨l, h'⟩ := h'
  exact ⟨k - l, by push_cast; linarith⟩

theorem int_mul {x y : ℝ} (h : SameDir x y) (n : ℤ) : SameDir (n * x) (n * y) := by
  obtain ⟨k, h⟩ := h
  exact ⟨n * k, by push_cast; rw [h]; ring⟩

theorem cos_eq {x y : ℝ} (h : SameDir x y) : cos x = cos y := by
  obtain ⟨k, h⟩ := h
  rw [h, Real.cos_add_int_mul_two_pi]

theorem sin_eq {x y : ℝ} (h : SameDir x y) : sin x = sin y := by
  obtain ⟨k, h⟩ := h
  rw [h, Real.sin_add_int_mul_two_pi]

theorem of_cos_sin {x y : ℝ} (h1 : cos x = cos y) (h2 : sin x = sin y) : SameDir x y := by
  obtain ⟨k, hk⟩ := Real.Angle.angle_eq_iff_two_pi_dvd_sub.1 (Real.Angle.cos_sin_inj h1 h2)
  exact ⟨k, by linarith⟩

/-- two representatives in [0, 2π) are equal -/
theorem eq_of_range {x y : ℝ} (h : SameDir x y) (hx : 0 ≤ x ∧ x < 2 * π)
    (hy : 0 ≤ y ∧ y < 2 * π) : x = y := by
  obtain ⟨k, h⟩ := h
  have hp := Real.pi_pos
  have h1 : (k : ℝ) < 1 := by
    by_contra hk
    push Not at hk
    nlinarith
  have h2 : (-1 : ℝ) < k := by
    by_contra hk
    push Not at hk
    nlinarith
  have h1' : k < 1 := by exact_mod_cast h1
  have h2' : -1 < k := by exact_mod_cast h2
  have : k = 0 := by omega
  subst this
  simpa using h

end SameDir

namespace Angle

/-- the stored complex number is on the unit circle -/
def Valid (a : Angle) : Prop := ‖a.value‖ = 1

theorem ext {a b : Angle} (h : a.value = b.value) : a = b := by
  cases a; cases b; cases h; rfl

@[simp] theorem setAngle_eq (a : Angle) (x : ℝ) : a.setAngle x = ofRad x := rfl

theorem norm_ofRad (x : ℝ) : ‖(ofRad x).value‖ = 1 := by
  have h : (ofRad x).value = Complex.exp (x * Complex.I) := by
    apply Complex.ext
    · simp [ofRad, Complex.exp_ofReal_mul_I_re]
    · simp [ofRad, Complex.exp_ofReal_mul_I_im]
  rw [h, Complex.norm_exp_ofReal_mul_I]

@[simp] theorem valid_ofRad (x : ℝ) : (ofRad x).Valid := norm_ofRad x

@[simp] theorem valid_add (a b : Angle) : (a.add b).Valid := valid_ofRad _
@[simp] theorem valid_sub (a b : Angle) : (a.sub b).Valid := valid_ofRad _
@[simp] theorem valid_scale (a : Angle) (r : ℝ) : (a.scale r).Valid := valid_ofRad _
@[simp] theorem valid_divide (a : Angle) (r : ℝ) : (a.divide r).Valid := valid_ofRad _

theorem getAngle_range (a : Angle) : 0 ≤ a.getAngle ∧ a.getAngle < 2 * π := by
  have h1 := Complex.neg_pi_lt_arg a.value
  have h2 := Complex.arg_le_pi a.value
  have h3 := Real.pi_pos
  unfold getAngle
  split
  · constructor <;> linarith
  · constructor <;> linarith

theorem cos_getAngle {a : Angle} (h : a.Valid) : cos a.getAngle = a.value.re := by
  have key : cos (Complex.arg a.value) = a.value.re := by
    rw [Complex.cos_arg (by intro h0; unfold Valid at h; rw [h0] at h; simp at h)]
    unfold Valid at h; rw [h]; simp
  unfold getAngle
  split
  · rw [Real.cos_add_two_pi, key]
  · exact key

theorem sin_getAngle {a : Angle} (h : a.Valid) : sin a.getAngle = a.value.im := by
  have key : sin (Complex.arg a.value) = a.value.im := by
    rw [Complex.sin_arg]
    unfold Valid at h; rw [h]; simp
  unfold getAngle
  split
  · rw [Real.sin_add_two_pi, key]
  · exact key

/-- every valid angle is the angle of its reported value -/
theorem ofRad_getAngle {a : Angle} (h : a.Valid) : ofRad a.getAngle = a := by
  apply ext
  apply Complex.ext
  · simpa [ofRad] using cos_getAngle h
  · simpa [ofRad] using sin_getAngle h

theorem cos_getAngle_ofRad (x : ℝ) : cos (ofRad x).getAngle = cos x := cos_getAngle (valid_ofRad x)
theorem sin_getAngle_ofRad (x : ℝ) : sin (ofRad x).getAngle = sin x := sin_getAngle (valid_ofRad x)

theorem sameDir_getAngle (x : ℝ) : SameDir (ofRad x).getAngle x :=
  SameDir.of_cos_sin (cos_getAngle_ofRad x) (sin_getAngle_ofRad x)

theorem ofRad_eq_iff {x y : ℝ} : ofRad x = ofRad y ↔ SameDir x y := by
  constructor
  · intro h
    have h1 : (ofRad x).value = (ofRad y).value := by rw [h]
    obtain ⟨h2, h3⟩ := Complex.ext_iff.1 h1
    exact SameDir.of_cos_sin h2 h3
  · intro h
    apply ext
    apply Complex.ext
    · exact h.cos_eq
    · exact h.sin_eq

theorem getAngle_ofRad_of_range {x : ℝ} (h : 0 ≤ x ∧ x < 2 * π) : (ofRad x).getAngle = x :=
  (sameDir_getAngle x).eq_of_range (getAngle_range _) h

theorem getAngle_inj {a b : Angle} (ha : a.Valid) (hb : b.Valid)
    (h : a.getAngle = b.getAngle) : a = b := by
  rw [← ofRad_getAngle ha, ← ofRad_getAngle hb, h]

theorem add_ofRad (x y : ℝ) : (ofRad x).add (ofRad y) = ofRad (x + y) :=
  ofRad_eq_iff.2 ((sameDir_getAngle x).add (sameDir_getAngle y))

theorem sub_ofRad (x y : ℝ) : (ofRad x).sub (ofRad y) = ofRad (x - y) :=
  ofRad_eq_iff.2 ((sameDir_getAngle x).sub (sameDir_getAngle y))

theorem sameDir_getAngle_add (a b : Angle) : SameDir (a.add b).getAngle (a.getAngle + b.getAngle) :=
  sameDir_getAngle _

theorem sameDir_getAngle_add_ofRad (a : Angle) (x : ℝ) :
    SameDir (a.add (ofRad x)).getAngle (a.getAngle + x) :=
  (sameDir_getAngle_add _ _).trans ((SameDir.refl _).add (sameDir_getAngle x))

/-- induction principle: valid angles are of the form `ofRad x` -/
theorem Valid.exists {a : Angle} (h : a.Valid) : ∃ x, a = ofRad x := ⟨_, (ofRad_getAngle h).symm⟩

end Angle

end Mot
