import Verif.Spec.Objects
import Verif.Proofs.TrackManager
/-!
# Properties of dynamic objects (C74)
-/

namespace Mot.Props

open Mot Spec

section
variable {S C S₁ C₁ S₂ C₂ : Type}

/-- C74: the getters read the members, and the members are all there is. -/
theorem C74_getters (o o' : DynObj S C) (v v' : Obj2 S₁ C₁ S₂ C₂) :
    TrackOps.timestamp o = (fields o).time ∧ TrackOps.uuid o = (fields o).id ∧
    TrackOps.semanticClass o = (fields o).cls ∧
    TrackOps.timestamp v = (fields2 v).time ∧ TrackOps.uuid v = (fields2 v).id ∧
    TrackOps.semanticClass v = (fields2 v).cls ∧
    (fields o = fields o' ↔ o = o') ∧ (fields2 v = fields2 v' ↔ v = v') := by
  refine ⟨rfl, rfl, rfl, ?_, ?_, ?_, ?_, ?_⟩
  · cases v <;> rfl
  · cases v <;> rfl
  · cases v <;> rfl
  · constructor
    · intro h
      obtain ⟨a, b, c, d, e⟩ := o
      obtain ⟨a', b', c', d', e'⟩ := o'
      simpa [fields] using h
    · rintro rfl; rfl
  · constructor
    · intro h
      rcases v with ⟨a, b, c, d, e⟩ | ⟨a, b, c, d, e⟩ <;>
        rcases v' with ⟨a', b', c', d', e'⟩ | ⟨a', b', c', d', e'⟩ <;>
        simp_all [fields2]
    · rintro rfl; rfl

/-- C74: a setter of an object changes its member and nothing else and never fails. -/
theorem C74_setters (o s : DynObj S C) (t : ℝ) (st : S) (c : C) (u : Uuid) (k : SemanticClass) :
    fields (TrackOps.setTimestamp o t) = { fields o with time := t } ∧
    fields (setUuid o u) = { fields o with id := u } ∧
    fields (setSemanticClass o k) = { fields o with cls := k } ∧
    (TrackOps.setState o st).2 = .ok () ∧
    fields (TrackOps.setState o st).1 = { fields o with state := st } ∧
    (TrackOps.setCovariance o c).2 = .ok () ∧
    fields (TrackOps.setCovariance o c).1 = { fields o with cov := c } ∧
    (TrackOps.copyState o s).2 = .ok () ∧
    fields (TrackOps.copyState o s).1 = { fields o with state := (fields s).state } ∧
    (TrackOps.copyCovariance o s).2 = .ok () ∧
    fields (TrackOps.copyCovariance o s).1 = { fields o with cov := (fields s).cov } :=
  ⟨rfl, rfl, rfl, rfl, rfl, rfl, rfl, rfl, rfl, rfl, rfl⟩

/-- C74: the setters of time, UUID and class of a variant change that member of the held
alternative. -/
theorem C74_variant_setters (v : Obj2 S₁ C₁ S₂ C₂) (t : ℝ) (u : Uuid) (k : SemanticClass) :
    fields2 (TrackOps.setTimestamp v t) = { fields2 v with time := t } ∧
    fields2 (setUuid2 v u) = { fields2 v with id := u } ∧
    fields2 (setSemanticClass2 v k) = { fields2 v with cls := k } := by
  cases v <;> exact ⟨rfl, rfl, rfl⟩

/-- C74: the setters of state and covariance of a variant succeed exactly if the argument is
of the type of the held alternative; then they change that member only.  Otherwise they throw
`std::runtime_error` and the object stays as it was. -/
theorem C74_variant_estimate (v : Obj2 S₁ C₁ S₂ C₂) (st : S₁ ⊕ S₂) (c : C₁ ⊕ C₂) :
    (SameSide v st → (TrackOps.setState v st).2 = .ok () ∧
      fields2 (TrackOps.setState v st).1 = { fields2 v with state := st }) ∧
    (¬ SameSide v st → TrackOps.setState v st = (v, .throw .runtimeError)) ∧
    (SameSide v c → (TrackOps.setCovariance v c).2 = .ok () ∧
      fields2 (TrackOps.setCovariance v c).1 = { fields2 v with cov := c }) ∧
    (¬ SameSide v c → TrackOps.setCovariance v c = (v, .throw .runtimeError)) := by
  rcases v with o | o <;> rcases st with st | st <;> rcases c with c | c <;>
    simp [SameSide, TrackOps.setState, TrackOps.setCovariance, fields2]

/-- C74: the same for copying from another object. -/
theorem C74_variant_copy (v s : Obj2 S₁ C₁ S₂ C₂) :
    (SameSide v s → (TrackOps.copyState v s).2 = .ok () ∧
      fields2 (TrackOps.copyState v s).1 = { fields2 v with state := (fields2 s).state } ∧
      (TrackOps.copyCovariance v s).2 = .ok () ∧
      fields2 (TrackOps.copyCovariance v s).1 = { fields2 v with cov := (fields2 s).cov }) ∧
    (¬ SameSide v s → TrackOps.copyState v s = (v, .throw .runtimeError) ∧
      TrackOps.copyCovariance v s = (v, .throw .runtimeError)) := by
  rcases v with o | o <;> rcases s with s | s <;>
    simp [SameSide, TrackOps.copyState, TrackOps.copyCovariance, fields2]

/-- C74: `make_track` copies every member; the form with a UUID replaces that one. -/
theorem C74_make_track (d : DynObj S C) (v : Obj2 S₁ C₁ S₂ C₂) (u : Uuid) :
    fields (makeTrackWith d u) = { fields d with id := u } ∧
    fields (makeTrack d) = fields d ∧ fields2 (makeTrack2 v) = fields2 v := by
  refine ⟨rfl, rfl, ?_⟩
  cases v <;> rfl

/-- C02: the track types of the library meet the assumption of the theorems about the
track manager. -/
theorem C02_track_types : LawfulTrackOps (DynObj S C) ∧ LawfulTrackOps (Obj2 S₁ C₁ S₂ C₂) :=
  ⟨inferInstance, inferInstance⟩

/-- a variant holding the first alternative rejects a state of the second -/
example : ¬ SameSide (.inl ⟨0, 1, (), ⟨[1]⟩, .unknown⟩ : Obj2 ℕ Unit ℤ Unit) (.inr 2 : ℕ ⊕ ℤ) ∧
    SameSide (.inl ⟨0, 1, (), ⟨[1]⟩, .unknown⟩ : Obj2 ℕ Unit ℤ Unit) (.inl 2 : ℕ ⊕ ℤ) := by
  simp [SameSide]

end

end Mot.Props
