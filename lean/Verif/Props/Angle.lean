import Verif.Proofs.Angle
import Mathlib.Analysis.Real.Pi.Bounds
/-!
# Properties of angles (C51 – C53), in exact real arithmetic
-/

namespace Mot.Props

open Mot Real

/-! ## C51 -/

/-- C51: the reported value is in [0, 2π), denotes the stored direction, and equals the
stored number when that is already in range. -/
theorem C51_get_angle (x : ℝ) :
    0 ≤ (Angle.ofRad x).getAngle ∧ (Angle.ofRad x).getAngle < 2 * π ∧
    SameDir (Angle.ofRad x).getAngle x ∧
    (0 ≤ x → x < 2 * π → (Angle.ofRad x).getAngle = x) :=
  ⟨(Angle.getAngle_range _).1, (Angle.getAngle_range _).2, Angle.sameDir_getAngle x,
    fun h1 h2 => Angle.getAngle_ofRad_of_range ⟨h1, h2⟩⟩

/-- C51: two angles compare equal iff they denote the same direction iff they report the
same value. -/
theorem C51_eq_iff (x y : ℝ) :
    ((Angle.ofRad x).eq (Angle.ofRad y) ↔ SameDir x y) ∧
    ((Angle.ofRad x).getAngle = (Angle.ofRad y).getAngle ↔ SameDir x y) := by
  refine ⟨⟨fun h => Angle.ofRad_eq_iff.1 (Angle.ext h), fun h => ?_⟩, ⟨fun h => ?_, fun h => ?_⟩⟩
  · unfold Angle.eq; rw [Angle.ofRad_eq_iff.2 h]
  · have := Angle.sameDir_getAngle x
    rw [h] at this
    exact this.symm.trans (Angle.sameDir_getAngle y)
  · rw [Angle.ofRad_eq_iff.2 h]

/-- C51: `set_angle` forgets the previous contents. -/
theorem C51_set_angle (a : Angle) (x : ℝ) :
    SameDir (a.setAngle x).getAngle x ∧ a.setAngle x = Angle.ofRad x :=
  ⟨Angle.sameDir_getAngle x, rfl⟩

/-- a wrapped, a negative and a boundary angle -/
example : (Angle.ofRad (2 * π + 1)).getAngle = 1 ∧ (Angle.ofRad (-1)).getAngle = 2 * π - 1 ∧
    (Angle.ofRad (2 * π)).getAngle = 0 ∧ (Angle.ofRad π).getAngle = π := by
  have hp := Real.pi_gt_three
  refine ⟨?_, ?_, ?_, ?_⟩
  · rw [Angle.ofRad_eq_iff.2 (⟨1, by push_cast; ring⟩ : SameDir (2 * π + 1) 1)]
    exact (C51_get_angle 1).2.2.2 (by norm_num) (by linarith)
  · rw [Angle.ofRad_eq_iff.2 (⟨-1, by push_cast; ring⟩ : SameDir (-1) (2 * π - 1))]
    exact (C51_get_angle _).2.2.2 (by linarith) (by linarith)
  · rw [Angle.ofRad_eq_iff.2 (⟨1, by push_cast; ring⟩ : SameDir (2 * π) 0)]
    exact (C51_get_angle _).2.2.2 le_rfl (by linarith)
  · exact (C51_get_angle _).2.2.2 (by linarith) (by linarith)

/-! ## C52 -/

/-- C52: adding and subtracting angles adds and subtracts directions. -/
theorem C52_add_sub (x y : ℝ) :
    (Angle.ofRad x).add (Angle.ofRad y) = Angle.ofRad (x + y) ∧
    (Angle.ofRad x).sub (Angle.ofRad y) = Angle.ofRad (x - y) :=
  ⟨Angle.add_ofRad x y, Angle.sub_ofRad x y⟩

/-- C52: the reported value of a sum/difference is congruent to the sum/difference of the
reported values. -/
theorem C52_get_angle (a b : Angle) :
    SameDir (a.add b).getAngle (a.getAngle + b.getAngle) ∧
    SameDir (a.sub b).getAngle (a.getAngle - b.getAngle) :=
  ⟨Angle.sameDir_getAngle _, Angle.sameDir_getAngle _⟩

/-- C52: commutative group laws (on values the class can hold). -/
theorem C52_group (a b c : Angle) (ha : a.Valid) :
    a.add b = b.add a ∧ (a.add b).add c = a.add (b.add c) ∧
    (a.add b).sub b = a ∧ (a.sub b).add b = a ∧
    a.add (Angle.ofRad 0) = a ∧ a.sub a = Angle.ofRad 0 := by
  have h := Angle.sameDir_getAngle
  refine ⟨?_, ?_, ?_, ?_, ?_, ?_⟩
  · exact congrArg Angle.ofRad (add_comm _ _)
  · refine Angle.ofRad_eq_iff.2 ?_
    refine ((h _).add (SameDir.refl _)).trans ?_
    rw [add_assoc]
    exact (SameDir.refl _).add (h _).symm
  · conv_rhs => rw [← Angle.ofRad_getAngle ha]
    refine Angle.ofRad_eq_iff.2 (((h _).sub (SameDir.refl _)).trans ?_)
    rw [add_sub_cancel_right]
    exact SameDir.refl _
  · conv_rhs => rw [← Angle.ofRad_getAngle ha]
    refine Angle.ofRad_eq_iff.2 (((h _).add (SameDir.refl _)).trans ?_)
    rw [sub_add_cancel]
    exact SameDir.refl _
  · conv_rhs => rw [← Angle.ofRad_getAngle ha]
    refine Angle.ofRad_eq_iff.2 ?_
    have := (SameDir.refl a.getAngle).add (h 0)
    rwa [add_zero] at this
  · exact congrArg Angle.ofRad (sub_self _)

/-- C52: all operations keep the stored number on the unit circle, so `Valid` holds of
every angle the class can produce.  (Division is by a non-zero number: dividing by 0 gives
an infinity or NaN, which exact real arithmetic does not have.) -/
theorem C52_valid (a b : Angle) (r x : ℝ) :
    (Angle.ofRad x).Valid ∧ (a.setAngle x).Valid ∧ (a.add b).Valid ∧ (a.sub b).Valid ∧
    (a.scale r).Valid ∧ (r ≠ 0 → (a.divide r).Valid) :=
  ⟨Angle.valid_ofRad _, Angle.valid_ofRad _, Angle.valid_ofRad _, Angle.valid_ofRad _,
    Angle.valid_ofRad _, fun _ => Angle.valid_ofRad _⟩

/-- wrap-around: 3π/2 + π = π/2 -/
example : ((Angle.ofRad (3 * π / 2)).add (Angle.ofRad π)).getAngle = π / 2 := by
  have hp := Real.pi_pos
  rw [(C52_add_sub _ _).1,
    Angle.ofRad_eq_iff.2 (⟨1, by push_cast; ring⟩ : SameDir (3 * π / 2 + π) (π / 2))]
  exact (C51_get_angle _).2.2.2 (by linarith) (by linarith)

/-! ## C53 -/

/-- C53: scaling acts on the reported value. -/
theorem C53_scale (a : Angle) (r : ℝ) :
    SameDir (a.scale r).getAngle (r * a.getAngle) ∧
    (r ≠ 0 → SameDir (a.divide r).getAngle (a.getAngle / r)) :=
  ⟨Angle.sameDir_getAngle _, fun _ => Angle.sameDir_getAngle _⟩

/-- C53: dividing by `r ≥ 1` and multiplying by `r` is the identity. -/
theorem C53_divide_scale (a : Angle) (ha : a.Valid) (r : ℝ) (hr : 1 ≤ r) :
    (a.divide r).scale r = a ∧ (a.divide r).getAngle = a.getAngle / r := by
  obtain ⟨h0, h1⟩ := a.getAngle_range
  have hr0 : 0 < r := by linarith
  have hval : (a.divide r).getAngle = a.getAngle / r := by
    refine Angle.getAngle_ofRad_of_range ⟨div_nonneg h0 hr0.le, ?_⟩
    rw [div_lt_iff₀ hr0]
    nlinarith [Real.pi_pos]
  refine ⟨?_, hval⟩
  unfold Angle.scale
  rw [hval, mul_div_cancel₀ _ hr0.ne', Angle.setAngle_eq, Angle.ofRad_getAngle ha]

/-- C53: scaling by integers is well defined on directions and distributes over sums. -/
theorem C53_int_scale (n : ℤ) (x : ℝ) (a b : Angle) :
    (Angle.ofRad x).scale n = Angle.ofRad (n * x) ∧
    (a.add b).scale n = (a.scale n).add (b.scale n) := by
  have h := Angle.sameDir_getAngle
  refine ⟨Angle.ofRad_eq_iff.2 ((h x).int_mul n), Angle.ofRad_eq_iff.2 ?_⟩
  refine ((h _).int_mul n).trans ?_
  rw [mul_add]
  exact ((h _).add (h _)).symm

/-- C53: scaling by 1/2 does not distribute over addition. -/
theorem C53_scale_not_additive :
    ∃ a b : Angle, a.Valid ∧ b.Valid ∧
      (a.add b).scale (1 / 2) ≠ (a.scale (1 / 2)).add (b.scale (1 / 2)) := by
  have hp := Real.pi_pos
  refine ⟨Angle.ofRad π, Angle.ofRad π, Angle.valid_ofRad _, Angle.valid_ofRad _, ?_⟩
  have e1 : (Angle.ofRad π).getAngle = π := Angle.getAngle_ofRad_of_range ⟨hp.le, by linarith⟩
  have e2 : (Angle.ofRad (π + π)).getAngle = 0 := by
    rw [Angle.ofRad_eq_iff.2 (⟨1, by push_cast; ring⟩ : SameDir (π + π) 0)]
    exact Angle.getAngle_ofRad_of_range ⟨le_rfl, by linarith⟩
  have e3 : (Angle.ofRad (1 / 2 * π)).getAngle = 1 / 2 * π :=
    Angle.getAngle_ofRad_of_range ⟨by linarith, by linarith⟩
  unfold Angle.scale Angle.add
  simp only [Angle.setAngle_eq, e1, e2, e3]
  intro h
  obtain ⟨k, hk⟩ := Angle.ofRad_eq_iff.1 h
  have hk' : ((2 * k + 1 : ℤ) : ℝ) * π = 0 := by push_cast; linarith
  rcases mul_eq_zero.1 hk' with h0 | h0
  · have : (2 * k + 1 : ℤ) = 0 := by exact_mod_cast h0
    omega
  · linarith

/-- C53: doubling and halving is not the identity: 3π/2 becomes π/2. -/
theorem C53_double_halve :
    ((Angle.ofRad (3 * π / 2)).scale 2).divide 2 = Angle.ofRad (π / 2) ∧
    ((Angle.ofRad (3 * π / 2)).scale 2).divide 2 ≠ Angle.ofRad (3 * π / 2) := by
  have hp := Real.pi_pos
  have e1 : (Angle.ofRad (3 * π / 2)).getAngle = 3 * π / 2 :=
    Angle.getAngle_ofRad_of_range ⟨by linarith, by linarith⟩
  have e2 : (Angle.ofRad (2 * (3 * π / 2))).getAngle = π := by
    rw [Angle.ofRad_eq_iff.2 (⟨1, by push_cast; ring⟩ : SameDir (2 * (3 * π / 2)) π)]
    exact Angle.getAngle_ofRad_of_range ⟨by linarith, by linarith⟩
  have h : ((Angle.ofRad (3 * π / 2)).scale 2).divide 2 = Angle.ofRad (π / 2) := by
    unfold Angle.scale Angle.divide
    simp only [Angle.setAngle_eq, e1, e2]
  refine ⟨h, ?_⟩
  rw [h]
  intro hc
  have e3 : (Angle.ofRad (π / 2)).getAngle = π / 2 :=
    Angle.getAngle_ofRad_of_range ⟨by linarith, by linarith⟩
  rw [hc, e1] at e3
  linarith

example : (Angle.ofRad (3 * π / 2)).Valid ∧ (1 : ℝ) ≤ 3 := ⟨Angle.valid_ofRad _, by norm_num⟩

end Mot.Props
