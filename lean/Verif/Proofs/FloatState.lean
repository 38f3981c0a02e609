import Verif.Spec.FloatState
import Verif.Proofs.FloatTime
import Verif.Proofs.FloatEq
import Verif.Proofs.FloatClusterHeading
/-!
# Sums, differences and products of `double`s
-/

namespace Mot

open Spec

theorem roundedTo_grid {x : ℚ} {k : ℤ} (h : x = k * (2 : ℚ) ^ (-1074 : ℤ)) : RoundedTo (FP.ofRat binary64 x) x := by
  have ho := b64_overflow x
  rw [← binary64.abs_round] at ho
  unfold FP.ofRat
  by_cases hlt : |binary64.round x| < (2 : ℚ) ^ binary64.emax
  · rw [if_pos hlt]
    exact .inr ⟨⟨_, rfl, isDouble_round hlt, round_grid h, fun hx => hx.round⟩, ho.1 hlt⟩
  · rw [if_neg hlt]
    exact .inl ⟨rfl, not_lt.1 fun hh => hlt (ho.2 hh)⟩

theorem isSum_add (a b : FP) : IsSum a b (FP.add binary64 a b) := by
  refine ⟨?_, ?_, ?_, ?_, ?_⟩
  · rintro x y rfl rfl hx hy
    obtain ⟨i, hi⟩ := hx.grid
    obtain ⟨j, hj⟩ := hy.grid
    refine roundedTo_grid (k := i + j) ?_
    rw [hi, hj]; push_cast; ring
  · rintro (rfl | rfl)
    · rfl
    · cases a <;> rfl
  · rintro s rfl rfl
    cases s <;> rfl
  · rintro s rfl h1 h2
    cases b with
    | nan => exact absurd rfl h1
    | inf t => cases s <;> cases t <;> first | rfl | exact absurd rfl h2
    | fin y => rfl
  · rintro s rfl h1 h2
    cases a with
    | nan => exact absurd rfl h1
    | inf t => cases s <;> cases t <;> first | rfl | exact absurd rfl h2
    | fin y => rfl

theorem isDifference_sub (a b : FP) : IsDifference a b (FP.sub binary64 a b) := by
  refine ⟨?_, ?_, ?_, ?_, ?_⟩
  · rintro x y rfl rfl hx hy
    obtain ⟨i, hi⟩ := hx.grid
    obtain ⟨j, hj⟩ := hy.grid
    refine roundedTo_grid (k := i - j) ?_
    rw [hi, hj]; push_cast; ring
  · rintro (rfl | rfl)
    · rfl
    · cases a <;> rfl
  · rintro s rfl rfl
    cases s <;> rfl
  · rintro s rfl h1 h2
    cases b with
    | nan => exact absurd rfl h1
    | inf t => cases s <;> cases t <;> first | rfl | exact absurd rfl h2
    | fin y => rfl
  · rintro s rfl h1 h2
    cases a with
    | nan => exact absurd rfl h1
    | inf t => cases s <;> cases t <;> first | rfl | exact absurd rfl h2
    | fin y => rfl

theorem FP.add_comm' (f : Fmt) (a b : FP) : FP.add f a b = FP.add f b a := by
  cases a <;> cases b <;> simp only [FP.add] <;> try rfl
  · split <;> split <;> simp_all
  · rw [_root_.add_comm]

theorem sub_self_double {x : ℚ} : FP.sub binary64 (.fin x) (.fin x) = .fin 0 := by
  show FP.ofRat binary64 (x - x) = _
  rw [sub_self]
  exact isDouble_zero.ofRat

end Mot
