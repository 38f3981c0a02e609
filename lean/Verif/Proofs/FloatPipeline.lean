import Verif.Spec.FloatPipeline
import Verif.Proofs.FloatFusing
import Verif.Proofs.FloatMahalanobis
/-!
# Lemmas: NaN in predictions and fusions
-/

namespace Mot

open Spec

variable {m : Libm}

theorem conv_nan {f : Fmt} {a : FP} (h : a = .nan) : a.conv f = .nan := by subst h; rfl

theorem div_nan (f : Fmt) (a : FP) : FP.div f a .nan = .nan := by cases a <;> rfl
theorem nan_div (f : Fmt) (a : FP) : FP.div f .nan a = .nan := by cases a <;> rfl

theorem rotateYawF_nan {n : ℕ} {w : Fin n → FP} {k : Fin n} (h : w k = .nan) :
    rotateYawF w k = .nan := by
  unfold rotateYawF
  rw [h, nan_sub]
  split <;> rfl

theorem unitsEqF_nan (b : FP) : unitsEqF .nan b = false := by
  unfold unitsEqF
  rw [nan_add, nan_sub]
  simp [FP.abs, mul_nan, FP.gt]

/-- the first row of the sigma points is the predicted state -/
theorem mean_nan {S : Type} {n : ℕ} [MotionModelF S n] {α β κ : FP} {lam dt : FP} {s : S}
    {L : Matrix (Fin n) (Fin n) FP} {j : Fin n} {x : FP}
    (hj : MotionModelF.toVec (MotionModelF.next s dt) j = .nan)
    (h : IsMeanF (weightsF n α β lam).1 ((predictedRowsF s L dt κ).map (· j)) x) : x = .nan := by
  unfold predictedRowsF at h
  simp only [List.map_cons] at h
  refine SumsTo.nan h ?_
  simp only [weightsF, List.zipWith_cons_cons, List.mem_cons]
  left
  rw [rotateYawF_nan hj, mul_nan]

theorem next_nan_ctrv {s : CtrvStateF m} (dt : FP) :
    (s.x = .nan ∨ s.v = .nan ∨ s.yawRate = .nan → (s.next dt).x = .nan) ∧
    (s.y = .nan ∨ s.v = .nan ∨ s.yawRate = .nan → (s.next dt).y = .nan) := by
  unfold CtrvStateF.next
  simp only
  constructor
  · rintro (h | h | h)
    · rw [h]; split <;> simp only [nan_add]
    · rw [h]; split <;> simp only [nan_mul, nan_div, add_nan]
    · rw [h, unitsEqF_nan, if_neg (by simp)]; simp only [nan_mul, div_nan, add_nan]
  · rintro (h | h | h)
    · rw [h]; split <;> simp only [nan_add, nan_sub]
    · rw [h]; split <;> simp only [nan_mul, nan_div, add_nan, sub_nan]
    · rw [h, unitsEqF_nan, if_neg (by simp)]; simp only [nan_mul, div_nan, sub_nan]

theorem next_nan_ctra {s : CtraStateF m} (dt : FP) :
    (s.x = .nan ∨ s.v = .nan ∨ s.yawRate = .nan ∨ s.a = .nan → (s.next dt).x = .nan) ∧
    (s.y = .nan ∨ s.v = .nan ∨ s.yawRate = .nan ∨ s.a = .nan → (s.next dt).y = .nan) := by
  have neg_nan : FP.neg .nan = .nan := rfl
  unfold CtraStateF.next
  simp only
  constructor
  · rintro (h | h | h | h)
    · rw [h]; exact nan_add _ _
    · rw [h]; split <;> simp only [nan_mul, mul_nan, nan_add, add_nan, nan_sub, sub_nan]
    · rw [h, unitsEqF_nan, if_neg (by simp)]; simp only [nan_mul, div_nan, add_nan]
    · rw [h]; split <;> simp only [nan_mul, nan_div, mul_nan, add_nan, nan_sub, sub_nan]
  · rintro (h | h | h | h)
    · rw [h]; exact nan_add _ _
    · rw [h]
      split <;> simp only [neg_nan, nan_mul, mul_nan, nan_add, add_nan, nan_sub]
    · rw [h, unitsEqF_nan, if_neg (by simp)]; simp only [nan_mul, div_nan, add_nan]
    · rw [h]
      split <;> simp only [neg_nan, nan_mul, nan_div, mul_nan, nan_add, add_nan, sub_nan]

theorem Spec.PredictsF.same {o o' : FObj m} (h : PredictsF o o') : SameObject o o' := by
  cases h with
  | ctrv hu hc h => exact ⟨hu, hc, rfl⟩
  | ctra hu hc h => exact ⟨hu, hc, rfl⟩

theorem Spec.FusesF.same {E : EigenF} {t d f : FObj m} (h : FusesF E t d f) : SameObject t f := by
  cases h with
  | ctrv h => obtain ⟨x, C, -, rfl⟩ := h; exact ⟨rfl, rfl, rfl⟩
  | ctra h => obtain ⟨x, C, -, rfl⟩ := h; exact ⟨rfl, rfl, rfl⟩

theorem position_subset (o : FObj m) : position o ⊆ numbers o := by
  intro c hc
  cases o <;> simp only [position, numbers, List.mem_cons, List.not_mem_nil, or_false] at hc ⊢ <;> tauto

theorem Spec.PredictsF.nan {o o' : FObj m} (h : PredictsF o o') (hn : FP.nan ∈ numbers o) :
    FP.nan ∈ position o' := by
  cases h with
  | @ctrv o o' hu hc α β κ dt L h =>
    obtain ⟨x, hx, -, e⟩ := h
    simp only [numbers, position, List.mem_cons, List.not_mem_nil, or_false] at hn ⊢
    have h0 : o'.state.x = (x 0).conv binary64 := by rw [e]; rfl
    have h1 : o'.state.y = (x 1).conv binary64 := by rw [e]; rfl
    have n := next_nan_ctrv (s := o.state) dt
    by_cases hy : FP.nan = o.state.y
    · right
      rw [h1, conv_nan (mean_nan (conv_nan (n.2 (.inl hy.symm))) (hx 1))]
    · left
      rw [h0, conv_nan (mean_nan (conv_nan (n.1 ?_)) (hx 0))]
      rcases hn with h | h | h | h
      · exact .inl h.symm
      · exact absurd h hy
      · exact .inr (.inl h.symm)
      · exact .inr (.inr h.symm)
  | @ctra o o' hu hc α β κ dt L h =>
    obtain ⟨x, hx, -, e⟩ := h
    simp only [numbers, position, List.mem_cons, List.not_mem_nil, or_false] at hn ⊢
    have h0 : o'.state.x = (x 0).conv binary64 := by rw [e]; rfl
    have h1 : o'.state.y = (x 1).conv binary64 := by rw [e]; rfl
    have n := next_nan_ctra (s := o.state) dt
    by_cases hy : FP.nan = o.state.y
    · right
      rw [h1, conv_nan (mean_nan (conv_nan (n.2 (.inl hy.symm))) (hx 1))]
    · left
      rw [h0, conv_nan (mean_nan (conv_nan (n.1 ?_)) (hx 0))]
      rcases hn with h | h | h | h | h
      · exact .inl h.symm
      · exact absurd h hy
      · exact .inr (.inl h.symm)
      · exact .inr (.inr (.inl h.symm))
      · exact .inr (.inr (.inr h.symm))

theorem Spec.FusesF.nan {E : EigenF} {t d f : FObj m} (h : FusesF E t d f)
    (hn : FP.nan ∈ numbers t ∨ FP.nan ∈ numbers d ∨ fusionWeight E t d = some .nan) :
    ∀ c ∈ numbers f, c = .nan := by
  cases h with
  | @ctrv t d f h =>
    have hv : ∀ o : DynObj (CtrvStateF m) (Matrix (Fin 5) (Fin 5) FP),
        FP.nan ∈ numbers (.inl o : FObj m) → ∃ i, MotionModelF.toVec o.state i = .nan := by
      intro o hc
      simp only [numbers, List.mem_cons, List.not_mem_nil, or_false] at hc
      rcases hc with h | h | h | h
      · exact ⟨0, conv_nan h.symm⟩
      · exact ⟨1, conv_nan h.symm⟩
      · exact ⟨2, conv_nan h.symm⟩
      · exact ⟨4, conv_nan h.symm⟩
    obtain ⟨x, C, hx, rfl⟩ := h
    have key : ∀ i, x i = .nan := hx.nan (by
      rcases hn with h | h | h
      · exact .inr (.inl (hv _ h))
      · exact .inr (.inr (.inl (hv _ h)))
      · exact .inl (Option.some.inj h))
    intro c hc
    simp only [numbers, List.mem_cons, List.not_mem_nil, or_false] at hc
    rcases hc with rfl | rfl | rfl | rfl
    · exact conv_nan (key 0)
    · exact conv_nan (key 1)
    · exact conv_nan (key 2)
    · exact conv_nan (key 4)
  | @ctra t d f h =>
    have hv : ∀ o : DynObj (CtraStateF m) (Matrix (Fin 6) (Fin 6) FP),
        FP.nan ∈ numbers (.inr o : FObj m) → ∃ i, MotionModelF.toVec o.state i = .nan := by
      intro o hc
      simp only [numbers, List.mem_cons, List.not_mem_nil, or_false] at hc
      rcases hc with h | h | h | h | h
      · exact ⟨0, conv_nan h.symm⟩
      · exact ⟨1, conv_nan h.symm⟩
      · exact ⟨2, conv_nan h.symm⟩
      · exact ⟨4, conv_nan h.symm⟩
      · exact ⟨5, conv_nan h.symm⟩
    obtain ⟨x, C, hx, rfl⟩ := h
    have key : ∀ i, x i = .nan := hx.nan (by
      rcases hn with h | h | h
      · exact .inr (.inl (hv _ h))
      · exact .inr (.inr (.inl (hv _ h)))
      · exact .inl (Option.some.inj h))
    intro c hc
    simp only [numbers, List.mem_cons, List.not_mem_nil, or_false] at hc
    rcases hc with rfl | rfl | rfl | rfl | rfl
    · exact conv_nan (key 0)
    · exact conv_nan (key 1)
    · exact conv_nan (key 2)
    · exact conv_nan (key 4)
    · exact conv_nan (key 5)

end Mot
