import Verif.Proofs.Swap
import Verif.Props.Ukf
/-!
# C37: exactly when exchanging `beta` and `kappa` makes no difference
-/

namespace Mot.Props

open Mot Matrix Spec

/-- C37: for CTRV objects `UnscentedTransform{α, β, κ}` predicts as the filter does with α, β,
κ — for all objects with positive definite covariance and all times — exactly if β = κ, or
no prediction exists for either order of the parameters. -/
theorem C37_honoured_iff {chol : Chol} (hchol : IsLlt chol) (α β κ : ℝ) :
    (∀ (o p : DynObj CtrvState CtrvCov) (time : ℝ), o.covariance.PosDef →
      (predict o time (unscentedTransform chol α β κ) = .ok p ↔
        ∃ s C, ukfPredict chol o.state o.covariance (time - o.timestamp) α β κ = .ok (s, C) ∧
          p = ⟨time, s, C, o.uuid, o.semanticClass⟩)) ↔
    β = κ ∨ α = 0 ∨ (β ≤ -5 ∧ κ ≤ -5) := by
  have hpred : ∀ (o p : DynObj CtrvState CtrvCov) (time : ℝ),
      predict o time (unscentedTransform chol α β κ) = .ok p ↔
        ∃ s C, ukfPredict chol o.state o.covariance (time - o.timestamp) α κ β = .ok (s, C) ∧
          p = ⟨time, s, C, o.uuid, o.semanticClass⟩ := by
    intro o p time
    unfold predict propagate unscentedTransform
    simp only
    rcases ukfPredict chol o.state o.covariance (time - o.timestamp) α κ β with ⟨s, C⟩ | e | w
    · simp only [Outcome.ok.injEq, Prod.mk.injEq]
      constructor
      · rintro rfl; exact ⟨s, C, ⟨rfl, rfl⟩, rfl⟩
      · rintro ⟨s', C', ⟨rfl, rfl⟩, rfl⟩; rfl
    · simp
    · simp
  constructor
  · intro h
    by_contra hne
    push Not at hne
    obtain ⟨h1, h2, h3⟩ := hne
    have ha : 0 < α ^ 2 := by positivity
    have hdef : 0 < α ^ 2 * (5 + β) ↔ 0 < α ^ 2 * (5 + κ) := by
      have e := fun b k : ℝ => C42_defined_iff chol eastState (headingCov 1) 1 α b k
      push_cast at e
      rw [← e κ β, ← e β κ]
      have h' := fun p => (hpred _ p 1).symm.trans (h (⟨0, eastState, headingCov 1, ⟨[]⟩, .unknown⟩)
        p 1 (headingCov_posDef one_pos))
      simp only [sub_zero] at h'
      constructor
      · rintro ⟨⟨s, C⟩, hs⟩
        obtain ⟨s', C', h'', -⟩ := (h' _).1 ⟨s, C, hs, rfl⟩
        exact ⟨_, h''⟩
      · rintro ⟨⟨s, C⟩, hs⟩
        obtain ⟨s', C', h'', -⟩ := (h' _).2 ⟨s, C, hs, rfl⟩
        exact ⟨_, h''⟩
    have hβ : 0 < α ^ 2 * (5 + β) := by
      by_contra hb
      have hk := fun hk => hb (hdef.2 hk)
      have : ∀ x, ¬ 0 < α ^ 2 * (5 + x) → x ≤ -5 := by
        intro x hx
        by_contra hx'
        exact hx (mul_pos ha (by linarith))
      exact absurd (this κ hk) (not_le.2 (h3 (this β hb)))
    have hκ := hdef.1 hβ
    obtain ⟨K, hK⟩ := heading_predict hchol α κ β hβ
    obtain ⟨K', hK'⟩ := heading_predict hchol α β κ hκ
    have := cos_scaled_inj hβ hκ (K := K) (K' := K') (by
      intro σ hσ
      obtain ⟨s, C, hs, hx⟩ := hK σ hσ
      obtain ⟨s', C', hs', hx'⟩ := hK' σ hσ
      rw [← hx, ← hx']
      have h' := ((hpred _ _ 1).symm.trans (h (⟨0, eastState, headingCov σ, ⟨[]⟩, .unknown⟩)
        ⟨1, s, C, ⟨[]⟩, .unknown⟩ 1 (headingCov_posDef hσ))).1 ⟨s, C, by rw [sub_zero]; exact hs, rfl⟩
      rw [sub_zero] at h'
      obtain ⟨s'', C'', e1, e2⟩ := h'
      rw [hs'] at e1
      cases e1
      cases e2
      rfl)
    exact h1 (by have := mul_left_cancel₀ ha.ne' this; linarith)
  · intro h o p time _
    rw [hpred]
    rcases h with rfl | h
    · rfl
    · have : ∀ b k : ℝ, (α = 0 ∨ k ≤ -5) →
          ukfPredict chol o.state o.covariance (time - o.timestamp) α b k = .ub .notReal := by
        intro b k hk
        apply ukfPredict_notReal
        rcases hk with rfl | hk
        · simp
        · exact mul_nonpos_of_nonneg_of_nonpos (sq_nonneg α) (by push_cast; linarith)
      rw [this κ β (h.imp_right And.left), this β κ (h.imp_right And.right)]

/-- C37: for CTRA objects `UnscentedTransform{α, β, κ}` predicts as the filter does with α, β,
κ — for all objects with positive definite covariance and all times — exactly if β = κ, or
no prediction exists for either order of the parameters. -/
theorem C37_honoured_iff_ctra {chol : Chol} (hchol : IsLlt chol) (α β κ : ℝ) :
    (∀ (o p : DynObj CtraState CtraCov) (time : ℝ), o.covariance.PosDef →
      (predict o time (unscentedTransform chol α β κ) = .ok p ↔
        ∃ s C, ukfPredict chol o.state o.covariance (time - o.timestamp) α β κ = .ok (s, C) ∧
          p = ⟨time, s, C, o.uuid, o.semanticClass⟩)) ↔
    β = κ ∨ α = 0 ∨ (β ≤ -6 ∧ κ ≤ -6) := by
  have hpred : ∀ (o p : DynObj CtraState CtraCov) (time : ℝ),
      predict o time (unscentedTransform chol α β κ) = .ok p ↔
        ∃ s C, ukfPredict chol o.state o.covariance (time - o.timestamp) α κ β = .ok (s, C) ∧
          p = ⟨time, s, C, o.uuid, o.semanticClass⟩ := by
    intro o p time
    unfold predict propagate unscentedTransform
    simp only
    rcases ukfPredict chol o.state o.covariance (time - o.timestamp) α κ β with ⟨s, C⟩ | e | w
    · simp only [Outcome.ok.injEq, Prod.mk.injEq]
      constructor
      · rintro rfl; exact ⟨s, C, ⟨rfl, rfl⟩, rfl⟩
      · rintro ⟨s', C', ⟨rfl, rfl⟩, rfl⟩; rfl
    · simp
    · simp
  constructor
  · intro h
    by_contra hne
    push Not at hne
    obtain ⟨h1, h2, h3⟩ := hne
    have ha : 0 < α ^ 2 := by positivity
    have hdef : 0 < α ^ 2 * (6 + β) ↔ 0 < α ^ 2 * (6 + κ) := by
      have e := fun b k : ℝ => C42_defined_iff chol eastStateA (headingCovA 1) 1 α b k
      push_cast at e
      rw [← e κ β, ← e β κ]
      have h' := fun p => (hpred _ p 1).symm.trans (h (⟨0, eastStateA, headingCovA 1, ⟨[]⟩, .unknown⟩)
        p 1 (headingCovA_posDef one_pos))
      simp only [sub_zero] at h'
      constructor
      · rintro ⟨⟨s, C⟩, hs⟩
        obtain ⟨s', C', h'', -⟩ := (h' _).1 ⟨s, C, hs, rfl⟩
        exact ⟨_, h''⟩
      · rintro ⟨⟨s, C⟩, hs⟩
        obtain ⟨s', C', h'', -⟩ := (h' _).2 ⟨s, C, hs, rfl⟩
        exact ⟨_, h''⟩
    have hβ : 0 < α ^ 2 * (6 + β) := by
      by_contra hb
      have hk := fun hk => hb (hdef.2 hk)
      have : ∀ x, ¬ 0 < α ^ 2 * (6 + x) → x ≤ -6 := by
        intro x hx
        by_contra hx'
        exact hx (mul_pos ha (by linarith))
      exact absurd (this κ hk) (not_le.2 (h3 (this β hb)))
    have hκ := hdef.1 hβ
    obtain ⟨K, hK⟩ := heading_predictA hchol α κ β hβ
    obtain ⟨K', hK'⟩ := heading_predictA hchol α β κ hκ
    have := cos_scaled_inj hβ hκ (K := K) (K' := K') (by
      intro σ hσ
      obtain ⟨s, C, hs, hx⟩ := hK σ hσ
      obtain ⟨s', C', hs', hx'⟩ := hK' σ hσ
      rw [← hx, ← hx']
      have h' := ((hpred _ _ 1).symm.trans (h (⟨0, eastStateA, headingCovA σ, ⟨[]⟩, .unknown⟩)
        ⟨1, s, C, ⟨[]⟩, .unknown⟩ 1 (headingCovA_posDef hσ))).1 ⟨s, C, by rw [sub_zero]; exact hs, rfl⟩
      rw [sub_zero] at h'
      obtain ⟨s'', C'', e1, e2⟩ := h'
      rw [hs'] at e1
      cases e1
      cases e2
      rfl)
    exact h1 (by have := mul_left_cancel₀ ha.ne' this; linarith)
  · intro h o p time _
    rw [hpred]
    rcases h with rfl | h
    · rfl
    · have : ∀ b k : ℝ, (α = 0 ∨ k ≤ -6) →
          ukfPredict chol o.state o.covariance (time - o.timestamp) α b k = .ub .notReal := by
        intro b k hk
        apply ukfPredict_notReal
        rcases hk with rfl | hk
        · simp
        · exact mul_nonpos_of_nonneg_of_nonpos (sq_nonneg α) (by push_cast; linarith)
      rw [this κ β (h.imp_right And.left), this β κ (h.imp_right And.right)]

/-- a factorisation as required exists, and for the default parameters 1, 2, 1 the answer is no -/
example : ∃ chol : Chol, IsLlt chol ∧ ¬ ∀ (o p : DynObj CtrvState CtrvCov) (time : ℝ),
    o.covariance.PosDef → (predict o time (unscentedTransform chol 1 2 1) = .ok p ↔
        ∃ s C, ukfPredict chol o.state o.covariance (time - o.timestamp) 1 2 1 = .ok (s, C) ∧
          p = ⟨time, s, C, o.uuid, o.semanticClass⟩) := by
  obtain ⟨chol, h⟩ := exists_llt
  refine ⟨chol, h, ?_⟩
  rw [C37_honoured_iff h]
  norm_num

end Mot.Props
