import Verif.Spec.FloatPipeline
import Verif.Spec.Matching
/-!
# Vocabulary for statements about whole periods in floating-point arithmetic
-/

namespace Mot.Spec

section
variable {τ : Type} (metric : τ → τ → Option FP) (gate : FP → Bool)

/-- the pair has a score that is not gated out -/
def Open (t d : τ) : Prop := ∃ s, metric t d = some s ∧ gate s = false

/-- every pair is gated out or cannot be scored -/
def AllGated (ts ds : List τ) : Prop := ∀ t ∈ ts, ∀ d ∈ ds, ¬ Open metric gate t d

/-- some pair has an infinite score or NaN, and is not gated out -/
def SomeNotFinite (ts ds : List τ) : Prop :=
  ∃ t ∈ ts, ∃ d ∈ ds, ∃ s, metric t d = some s ∧ gate s = false ∧ ∀ q, s ≠ .fin q

/-- every track in an open pair and every detection in an open pair are at distance 0 -/
def AllZero (ts ds : List τ) : Prop :=
  ∀ t ∈ ts, ∀ d ∈ ds, (∃ d' ∈ ds, Open metric gate t d') → (∃ t' ∈ ts, Open metric gate t' d) →
    metric t d = some (.fin 0) ∧ gate (.fin 0) = false

end

end Mot.Spec
