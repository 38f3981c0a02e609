import Verif.Spec.FloatCovariance
import Verif.Proofs.FloatPipeline
import Verif.Proofs.FloatPredict
import Verif.Proofs.Ukf
/-!
# Lemmas: covariances that are not numbers
-/

namespace Mot

open Spec

variable {m : Libm}

namespace LltF
variable {n : ℕ}

/-- what becomes of a number that is not finite -/
theorem Loop.keep {ks : List (Fin n)} {A B : Matrix (Fin n) (Fin n) FP} {r : Option (Fin n)} (h : Loop ks A B r) :
    (∀ i j, j ≤ i → A i j = .nan → B i j = .nan) ∧
    ∀ i, A i i = .inf false ∨ A i i = .nan → B i i = .inf false ∨ B i i = .nan := by
  induction h with
  | nil A => exact ⟨fun _ _ _ h => h, fun _ h => h⟩
  | stop _ _ => exact ⟨fun _ _ _ h => h, fun _ h => h⟩
  | @step k ks A x A' B r hx h0 hc _ ih =>
    obtain ⟨c1, c2, c3⟩ := hc
    constructor
    · intro i j hij hA
      refine ih.1 i j hij ?_
      by_cases hj : j = k
      · subst hj
        rcases hij.eq_or_lt with rfl | hlt
        · rw [c1]
          unfold IsPivot at hx
          split at hx
          · rw [hx, hA]; rfl
          · obtain ⟨s, -, rfl⟩ := hx
            rw [hA, nan_sub]; rfl
        · obtain ⟨y, hy, e⟩ := c2 i hlt
          rw [e, hy.nan (by rw [hA]; exact List.mem_cons_self), nan_div]
      · rw [c3 i j (.inl hj), hA]
    · intro i hA
      refine ih.2 i ?_
      by_cases hi : i = k
      · subst hi
        rw [c1]
        have hx' : x = .inf false ∨ x = .nan := by
          unfold IsPivot at hx
          split at hx
          · rwa [hx]
          · obtain ⟨s, -, rfl⟩ := hx
            rcases hA with h | h <;> rw [h]
            · cases s with
              | nan => exact .inr rfl
              | fin q => exact .inl rfl
              | inf b => cases b
                         · exact .inr rfl
                         · exact .inl rfl
            · exact .inr (nan_sub _ _)
        rcases hx' with rfl | rfl
        · exact .inl rfl
        · exact .inr rfl
      · rwa [c3 i i (.inl hi)]

end LltF

theorem IsLltF.nan {n : ℕ} {P L : Matrix (Fin n) (Fin n) FP} {r : Option (Fin n)} (h : IsLltF P L r) {i j : Fin n}
    (hij : j ≤ i) (hP : P i j = .nan) : L i j = .nan := by
  obtain ⟨B, hB, hL⟩ := h
  rw [hL, if_pos hij]
  exact hB.keep.1 i j hij hP

theorem IsLltF.inf {n : ℕ} {P L : Matrix (Fin n) (Fin n) FP} {r : Option (Fin n)} (h : IsLltF P L r) {i : Fin n}
    (hP : P i i = .inf false) : L i i = .inf false ∨ L i i = .nan := by
  obtain ⟨B, hB, hL⟩ := h
  rw [hL, if_pos le_rfl]
  exact hB.keep.2 i (.inl hP)

/-- infinite with the given sign, or NaN -/
def Gone (b : Bool) (a : FP) : Prop := a = .inf b ∨ a = .nan

theorem SumsTo.inf {f : Fmt} {l : List FP} {x : FP} (h : SumsTo f l x) {b : Bool} (hl : ∃ a ∈ l, Gone b a) : Gone b x := by
  induction h with
  | one a => obtain ⟨c, hc, h⟩ := hl; rwa [List.mem_singleton.1 hc] at h
  | @add l r x y h1 h2 ih1 ih2 =>
    obtain ⟨a, ha, hg⟩ := hl
    rcases List.mem_append.1 ha with h | h
    · rcases ih1 ⟨a, h, hg⟩ with rfl | rfl
      · cases y with
        | nan => exact .inr rfl
        | fin q => exact .inl rfl
        | inf c => show Gone b (if b = c then .inf b else .nan); split <;> [exact .inl rfl; exact .inr rfl]
      · exact .inr (nan_add _ _)
    · rcases ih2 ⟨a, h, hg⟩ with rfl | rfl
      · cases x with
        | nan => exact .inr rfl
        | fin q => exact .inl rfl
        | inf c => show Gone b (if c = b then .inf c else .nan); split <;> [exact .inl (by simp_all); exact .inr rfl]
      · exact .inr (add_nan _ _)
  | perm hp h ih => exact ih (by simpa only [hp.mem_iff] using hl)

theorem Gone.conv {b : Bool} {a : FP} (h : Gone b a) (f : Fmt) : Gone b (a.conv f) := by
  rcases h with rfl | rfl
  · exact .inl rfl
  · exact .inr rfl

theorem Gone.add {f : Fmt} {b : Bool} {a : FP} (h : Gone b a) (c : FP) : Gone b (FP.add f c a) := by
  rcases h with rfl | rfl
  · cases c with
    | nan => exact .inr rfl
    | fin q => exact .inl rfl
    | inf c => show Gone b (if c = b then .inf c else .nan); split <;> [exact .inl (by simp_all); exact .inr rfl]
  · exact .inr (add_nan _ _)

theorem Gone.add_left {f : Fmt} {b : Bool} {a : FP} (h : Gone b a) (c : FP) : Gone b (FP.add f a c) := by
  rcases h with rfl | rfl
  · cases c with
    | nan => exact .inr rfl
    | fin q => exact .inl rfl
    | inf c => show Gone b (if b = c then .inf b else .nan); split <;> [exact .inl rfl; exact .inr rfl]
  · exact .inr (nan_add _ _)

theorem Gone.sub_left {f : Fmt} {b : Bool} {a : FP} (h : Gone b a) (c : FP) : Gone b (FP.sub f a c) := by
  rcases h with rfl | rfl
  · cases c with
    | nan => exact .inr rfl
    | fin q => exact .inl rfl
    | inf c => show Gone b (if b = c then .nan else .inf b); split <;> [exact .inr rfl; exact .inl rfl]
  · exact .inr (nan_sub _ _)

theorem Gone.sub {f : Fmt} {b : Bool} {a : FP} (h : Gone b a) (c : FP) : Gone (!b) (FP.sub f c a) := by
  rcases h with rfl | rfl
  · cases c with
    | nan => exact .inr rfl
    | fin q => exact .inl rfl
    | inf c =>
      show Gone (!b) (if c = b then .nan else .inf c)
      split
      · exact .inr rfl
      · rename_i hcb
        refine .inl ?_
        cases b <;> cases c <;> simp_all
  · exact .inr (sub_nan _ _)

/-- a common factor leaves opposite infinities opposite -/
theorem Gone.mul {f : Fmt} (w : FP) : ∃ t : Bool, ∀ (b : Bool) (a : FP), Gone b a → Gone (b != t) (FP.mul f w a) := by
  cases w with
  | nan => exact ⟨false, fun b a _ => .inr (nan_mul _ _)⟩
  | inf s =>
    refine ⟨s, fun b a h => ?_⟩
    rcases h with rfl | rfl
    · refine .inl ?_
      show FP.inf (s != b) = _
      cases s <;> cases b <;> rfl
    · exact .inr rfl
  | fin q =>
    refine ⟨decide (q < 0), fun b a h => ?_⟩
    rcases h with rfl | rfl
    · show Gone _ (if q = 0 then .nan else .inf (b != decide (q < 0)))
      split
      · exact .inr rfl
      · exact .inl rfl
    · exact .inr rfl

theorem Gone.both {b : Bool} {a : FP} (h : Gone b a) (h' : Gone (!b) a) : a = .nan := by
  rcases h with rfl | rfl
  · rcases h' with h | h
    · cases b <;> simp at h
    · exact h
  · rfl

section
variable {S : Type} {n : ℕ} [MotionModelF S n]

/-- the rows of the sigma points are among the summands -/
theorem mean_mem {α β lam κ dt : FP} {s : S} {L : Matrix (Fin n) (Fin n) FP} {k : Fin n} (hk : k.1 ≠ 3) (j : Fin n) :
    FP.mul binary32 (wiF n lam) (MotionModelF.toVec (MotionModelF.next (MotionModelF.add s (offsetF S L κ j)) dt) k) ∈
      List.zipWith (FP.mul binary32) (weightsF n α β lam).1 ((predictedRowsF s L dt κ).map (· k)) ∧
    FP.mul binary32 (wiF n lam) (MotionModelF.toVec (MotionModelF.next (MotionModelF.sub s (offsetF S L κ j)) dt) k) ∈
      List.zipWith (FP.mul binary32) (weightsF n α β lam).1 ((predictedRowsF s L dt κ).map (· k)) := by
  rw [rows_map s L dt κ hk]
  have hlen := length_flatMap_pair
    (fun j => MotionModelF.toVec (MotionModelF.next (MotionModelF.add s (offsetF S L κ j)) dt) k)
    (fun j => MotionModelF.toVec (MotionModelF.next (MotionModelF.sub s (offsetF S L κ j)) dt) k) (List.finRange n)
  rw [List.length_finRange] at hlen
  simp only [weightsF, List.zipWith_cons_cons]
  rw [← hlen, zipWith_replicate]
  have hmem : ∀ a, a ∈ ((List.finRange n).flatMap fun j =>
        [MotionModelF.toVec (MotionModelF.next (MotionModelF.add s (offsetF S L κ j)) dt) k,
         MotionModelF.toVec (MotionModelF.next (MotionModelF.sub s (offsetF S L κ j)) dt) k]) ↔
      ∃ j, a = MotionModelF.toVec (MotionModelF.next (MotionModelF.add s (offsetF S L κ j)) dt) k ∨
        a = MotionModelF.toVec (MotionModelF.next (MotionModelF.sub s (offsetF S L κ j)) dt) k := by
    intro a
    simp
  exact ⟨List.mem_cons_of_mem _ (List.mem_map_of_mem ((hmem _).2 ⟨j, .inl rfl⟩)),
    List.mem_cons_of_mem _ (List.mem_map_of_mem ((hmem _).2 ⟨j, .inr rfl⟩))⟩

/-- a NaN in one sigma point -/
theorem mean_nan_point {α β lam κ dt x : FP} {s : S} {L : Matrix (Fin n) (Fin n) FP} {k : Fin n} (hk : k.1 ≠ 3) (j : Fin n)
    (hj : MotionModelF.toVec (MotionModelF.next (MotionModelF.add s (offsetF S L κ j)) dt) k = .nan)
    (h : IsMeanF (weightsF n α β lam).1 ((predictedRowsF s L dt κ).map (· k)) x) : x = .nan := by
  refine SumsTo.nan h ?_
  have := (mean_mem (α := α) (β := β) (lam := lam) (κ := κ) (dt := dt) (s := s) (L := L) hk j).1
  rwa [hj, mul_nan] at this

/-- opposite infinities in two sigma points -/
theorem mean_inf {α β lam κ dt x : FP} {s : S} {L : Matrix (Fin n) (Fin n) FP} {k : Fin n} (hk : k.1 ≠ 3) (j : Fin n) {b : Bool}
    (h1 : Gone b (MotionModelF.toVec (MotionModelF.next (MotionModelF.add s (offsetF S L κ j)) dt) k))
    (h2 : Gone (!b) (MotionModelF.toVec (MotionModelF.next (MotionModelF.sub s (offsetF S L κ j)) dt) k))
    (h : IsMeanF (weightsF n α β lam).1 ((predictedRowsF s L dt κ).map (· k)) x) : x = .nan := by
  have hm := mean_mem (α := α) (β := β) (lam := lam) (κ := κ) (dt := dt) (s := s) (L := L) hk j
  obtain ⟨t, ht⟩ := Gone.mul (f := binary32) (wiF n lam)
  have g1 := SumsTo.inf h ⟨_, hm.1, ht _ _ h1⟩
  have g2 := SumsTo.inf h ⟨_, hm.2, ht _ _ h2⟩
  refine g1.both ?_
  have e : (!(b != t)) = ((!b) != t) := by cases b <;> cases t <;> rfl
  rwa [e]

/-- the offset of a sigma point -/
theorem offset_gone {lam : FP} {L : Matrix (Fin n) (Fin n) FP} {i j : Fin n} (h : L i j = .inf false ∨ L i j = .nan) :
    ∃ b, Gone b (FP.mul binary32 (spreadF n lam) (L i j)) := by
  obtain ⟨t, ht⟩ := Gone.mul (f := binary32) (spreadF n lam)
  exact ⟨_, ht _ _ h⟩

end

theorem Spec.NanMath.getAngle {m : Libm} (hm : NanMath m) {c : FP} {b : Bool} (hc : Gone b c) : m.getAngle (m.ofRad c) = .nan := by
  unfold Libm.getAngle getAngleF
  rcases hc with rfl | rfl
  · rw [hm.phase_inf]; rfl
  · rw [hm.phase_nan]; rfl

theorem Spec.NanMath.addAng {m : Libm} (hm : NanMath m) {c : FP} {b : Bool} (hc : Gone b c) (z : m.Ang) :
    m.getAngle (m.addAng z (m.ofRad c)) = .nan := by
  unfold Libm.addAng
  rw [hm.getAngle hc, add_nan]
  exact hm.getAngle (b := b) (.inr rfl)

theorem unitsEqF_inf (b : Bool) : unitsEqF (.inf b) (.fin 0) = false := by
  cases b <;> decide +kernel

theorem Gone.unitsEqF {b : Bool} {a : FP} (h : Gone b a) : unitsEqF a (.fin 0) = false := by
  rcases h with rfl | rfl
  · exact unitsEqF_inf b
  · exact unitsEqF_nan _

theorem Gone.mul_left {f : Fmt} {b : Bool} {a : FP} (h : Gone b a) (c : FP) : ∃ b', Gone b' (FP.mul f a c) := by
  rcases h with rfl | rfl
  · cases c with
    | nan => exact ⟨false, .inr rfl⟩
    | inf c => exact ⟨_, .inl rfl⟩
    | fin q =>
      refine ⟨b != decide (q < 0), ?_⟩
      show Gone _ (if q = 0 then .nan else .inf (b != decide (q < 0)))
      split <;> [exact .inr rfl; exact .inl rfl]
  · exact ⟨b, .inr (nan_mul _ _)⟩

theorem Spec.NanMath.sin {m : Libm} (hm : NanMath m) {c : FP} {b : Bool} (hc : Gone b c) : m.sin c = .nan := by
  rcases hc with rfl | rfl
  · exact hm.sin_inf b
  · exact hm.sin_nan

theorem Spec.NanMath.cos {m : Libm} (hm : NanMath m) {c : FP} {b : Bool} (hc : Gone b c) : m.cos c = .nan := by
  rcases hc with rfl | rfl
  · exact hm.cos_inf b
  · exact hm.cos_nan

/-- a heading or a turn rate that is not a number -/
theorem next_gone_ctrv (hm : NanMath m) {s : CtrvStateF m} (dt : FP)
    (h : m.getAngle s.yaw = .nan ∨ ∃ b, Gone b s.yawRate) : (s.next dt).x = .nan ∧ (s.next dt).y = .nan := by
  unfold CtrvStateF.next
  simp only
  rcases h with h | ⟨b, h⟩
  · rw [h]
    simp only [hm.sin_nan, hm.cos_nan, nan_add]
    constructor <;> split <;> simp only [mul_nan, nan_mul, add_nan, sub_nan]
  · rw [h.unitsEqF, if_neg (by simp)]
    obtain ⟨b', h'⟩ := h.mul_left (f := binary64) dt
    have h2 := h'.add (f := binary64) (m.getAngle s.yaw)
    simp only [hm.sin h2, hm.cos h2, nan_sub, mul_nan, nan_mul, add_nan, sub_nan, and_self]

theorem next_gone_ctra (hm : NanMath m) {s : CtraStateF m} (dt : FP)
    (h : m.getAngle s.yaw = .nan ∨ ∃ b, Gone b s.yawRate) : (s.next dt).x = .nan ∧ (s.next dt).y = .nan := by
  unfold CtraStateF.next
  simp only
  rcases h with h | ⟨b, h⟩
  · rw [h]
    simp only [hm.sin_nan, hm.cos_nan]
    constructor <;> split <;> simp only [mul_nan, nan_mul, add_nan, sub_nan]
  · rw [h.unitsEqF, if_neg (by simp)]
    obtain ⟨b', h'⟩ := h.mul_left (f := binary64) dt
    rw [hm.addAng h']
    simp only [hm.sin_nan, hm.cos_nan, nan_sub, mul_nan, nan_mul, add_nan, nan_add, and_self]

/-- a sigma point with a NaN -/
theorem point_nan_ctrv (hm : NanMath m) (s : CtrvStateF m) (dt : FP) {w : Fin 5 → FP} {i : Fin 5} (hw : w i = .nan) :
    let q := MotionModelF.next (MotionModelF.add s (MotionModelF.ofVec w)) dt
    if i = 1 then q.y = .nan else q.x = .nan := by
  have e : ∀ c, FP.add binary64 c (FP.conv binary64 .nan) = .nan := fun c => add_nan _ _
  have n := next_nan_ctrv (s := MotionModelF.add s (MotionModelF.ofVec w)) dt
  fin_cases i
  · exact n.1 (.inl (show FP.add _ _ (FP.conv _ (w 0)) = _ by rw [show w 0 = _ from hw]; exact e _))
  · exact n.2 (.inl (show FP.add _ _ (FP.conv _ (w 1)) = _ by rw [show w 1 = _ from hw]; exact e _))
  · exact n.1 (.inr (.inl (show FP.add _ _ (FP.conv _ (w 2)) = _ by rw [show w 2 = _ from hw]; exact e _)))
  · refine (next_gone_ctrv hm dt (.inl ?_)).1
    exact hm.addAng (b := false) (.inr (by rw [show w 3 = _ from hw]; rfl)) _
  · exact n.1 (.inr (.inr (show FP.add _ _ (FP.conv _ (w 4)) = _ by rw [show w 4 = _ from hw]; exact e _)))

theorem point_nan_ctra (hm : NanMath m) (s : CtraStateF m) (dt : FP) {w : Fin 6 → FP} {i : Fin 6} (hw : w i = .nan) :
    let q := MotionModelF.next (MotionModelF.add s (MotionModelF.ofVec w)) dt
    if i = 1 then q.y = .nan else q.x = .nan := by
  have e : ∀ c, FP.add binary64 c (FP.conv binary64 .nan) = .nan := fun c => add_nan _ _
  have n := next_nan_ctra (s := MotionModelF.add s (MotionModelF.ofVec w)) dt
  fin_cases i
  · exact n.1 (.inl (show FP.add _ _ (FP.conv _ (w 0)) = _ by rw [show w 0 = _ from hw]; exact e _))
  · exact n.2 (.inl (show FP.add _ _ (FP.conv _ (w 1)) = _ by rw [show w 1 = _ from hw]; exact e _))
  · exact n.1 (.inr (.inl (show FP.add _ _ (FP.conv _ (w 2)) = _ by rw [show w 2 = _ from hw]; exact e _)))
  · refine (next_gone_ctra hm dt (.inl ?_)).1
    exact hm.addAng (b := false) (.inr (by rw [show w 3 = _ from hw]; rfl)) _
  · exact n.1 (.inr (.inr (.inl (show FP.add _ _ (FP.conv _ (w 4)) = _ by rw [show w 4 = _ from hw]; exact e _))))
  · exact n.1 (.inr (.inr (.inr (show FP.add _ _ (FP.conv _ (w 5)) = _ by rw [show w 5 = _ from hw]; exact e _))))

theorem cov_nan {wc colj colk : List FP} {xk p : FP} (hw : wc ≠ []) (hj : colj ≠ []) (hk : colk ≠ [])
    (h : IsCovF wc colj colk .nan xk p) : p = .nan := by
  obtain ⟨w, wc, rfl⟩ := List.exists_cons_of_ne_nil hw
  obtain ⟨a, colj, rfl⟩ := List.exists_cons_of_ne_nil hj
  obtain ⟨b, colk, rfl⟩ := List.exists_cons_of_ne_nil hk
  refine SumsTo.nan h ?_
  simp only [List.map_cons, List.zipWith_cons_cons, sub_nan, nan_mul]
  exact List.mem_cons_self

/-- a NaN in the predicted state is one in the predicted covariance -/
theorem predict_cov_nan {S : Type} {n : ℕ} [MotionModelF S n] {s : S} {L : Matrix (Fin n) (Fin n) FP} {dt lam α β : FP}
    {x : Fin n → FP} {P' : Matrix (Fin n) (Fin n) FP} {i : Fin n}
    (h : IsCovF (weightsF n α β lam).2 ((predictedRowsF s L dt lam).map (· i)) ((predictedRowsF s L dt lam).map (· i))
      (x i) (x i) (P' i i)) (hx : x i = .nan) : P' i i = .nan := by
  have hr : (predictedRowsF s L dt lam).map (· i) ≠ [] := by
    intro h
    have h1 := congrArg List.length h
    rw [List.length_map, rows_length] at h1
    simp at h1
  rw [hx] at h
  exact cov_nan (by simp [weightsF]) hr hr h

theorem Spec.PredictsLltF.predicts {o o' : FObj m} (h : PredictsLltF o o') : PredictsF o o' := by
  cases h with
  | ctrv hu hc hL h => exact .ctrv hu hc h
  | ctra hu hc hL h => exact .ctra hu hc h

theorem Spec.PredictsLltF.nan (hm : NanMath m) {o o' : FObj m} (h : PredictsLltF o o') (hn : CovarianceNan o) :
    FP.nan ∈ position o' ∧ CovarianceNan o' := by
  cases h with
  | @ctrv o o' hu hc α β κ dt L r hL h =>
    obtain ⟨x, hx, hP, e⟩ := h
    obtain ⟨i, j, hij, hn⟩ := hn
    have hp := point_nan_ctrv (m := m) hm o.state dt (i := i)
      (w := fun i => FP.mul binary32 (spreadF (5 : ℕ) (lambdaF (5 : ℕ) α β)) (L i j)) (by rw [hL.nan hij hn, mul_nan])
    have h0 : o'.state.x = (x 0).conv binary64 := by rw [e]; rfl
    have h1 : o'.state.y = (x 1).conv binary64 := by rw [e]; rfl
    simp only at hp
    split at hp
    · have := mean_nan_point (k := 1) (by decide) j (conv_nan hp) (hx 1)
      refine ⟨?_, 1, 1, le_rfl, predict_cov_nan (hP 1 1) this⟩
      rw [this] at h1
      exact List.mem_cons_of_mem _ (List.mem_singleton.2 h1.symm)
    · have := mean_nan_point (k := 0) (by decide) j (conv_nan hp) (hx 0)
      refine ⟨?_, 0, 0, le_rfl, predict_cov_nan (hP 0 0) this⟩
      rw [this] at h0
      exact List.mem_cons.2 (.inl h0.symm)
  | @ctra o o' hu hc α β κ dt L r hL h =>
    obtain ⟨x, hx, hP, e⟩ := h
    obtain ⟨i, j, hij, hn⟩ := hn
    have hp := point_nan_ctra (m := m) hm o.state dt (i := i)
      (w := fun i => FP.mul binary32 (spreadF (6 : ℕ) (lambdaF (6 : ℕ) α β)) (L i j)) (by rw [hL.nan hij hn, mul_nan])
    have h0 : o'.state.x = (x 0).conv binary64 := by rw [e]; rfl
    have h1 : o'.state.y = (x 1).conv binary64 := by rw [e]; rfl
    simp only at hp
    split at hp
    · have := mean_nan_point (k := 1) (by decide) j (conv_nan hp) (hx 1)
      refine ⟨?_, 1, 1, le_rfl, predict_cov_nan (hP 1 1) this⟩
      rw [this] at h1
      exact List.mem_cons_of_mem _ (List.mem_singleton.2 h1.symm)
    · have := mean_nan_point (k := 0) (by decide) j (conv_nan hp) (hx 0)
      refine ⟨?_, 0, 0, le_rfl, predict_cov_nan (hP 0 0) this⟩
      rw [this] at h0
      exact List.mem_cons.2 (.inl h0.symm)

/-- the sigma points on either side of an infinite standard deviation -/
theorem add_gone {c w : FP} {b : Bool} (h : Gone b w) :
    Gone b (FP.add binary64 c (w.conv binary64)) ∧ Gone (!b) (FP.sub binary64 c (w.conv binary64)) :=
  ⟨(h.conv _).add _, (h.conv _).sub _⟩

theorem Spec.PredictsLltF.inf (hm : NanMath m) {o o' : FObj m} (h : PredictsLltF o o') {k : ℕ} (hk : VarianceInfinite k o) :
    FP.nan ∈ numbers o' ∧ (k ≠ 2 → k ≠ 5 → FP.nan ∈ position o') := by
  cases h with
  | @ctrv o o' hu hc α β κ dt L r hL h =>
    obtain ⟨x, hx, -, e⟩ := h
    obtain ⟨i, rfl, hi⟩ := hk
    obtain ⟨b, hb⟩ := offset_gone (lam := lambdaF (5 : ℕ) α β) (hL.inf hi)
    have h0 : o'.state.x = (x 0).conv binary64 := by rw [e]; rfl
    have h1 : o'.state.y = (x 1).conv binary64 := by rw [e]; rfl
    have h2 : o'.state.v = (x 2).conv binary64 := by rw [e]; rfl
    have px : x 0 = .nan → FP.nan ∈ position (.inl o' : FObj m) := fun h => by
      rw [h] at h0; exact List.mem_cons.2 (.inl h0.symm)
    have py : x 1 = .nan → FP.nan ∈ position (.inl o' : FObj m) := fun h => by
      rw [h] at h1; exact List.mem_cons_of_mem _ (List.mem_singleton.2 h1.symm)
    fin_cases i
    · have hn := mean_inf (k := 0) (by decide) 0 (b := b) (Gone.conv ?_ _) (Gone.conv ?_ _) (hx 0)
      · exact ⟨position_subset _ (px hn), fun _ _ => px hn⟩
      · show Gone b (CtrvStateF.next _ _).x
        unfold CtrvStateF.next
        simp only
        split <;> exact (add_gone hb).1.add_left _
      · show Gone (!b) (CtrvStateF.next _ _).x
        unfold CtrvStateF.next
        simp only
        split <;> exact (add_gone hb).2.add_left _
    · have hn := mean_inf (k := 1) (by decide) 1 (b := b) (Gone.conv ?_ _) (Gone.conv ?_ _) (hx 1)
      · exact ⟨position_subset _ (py hn), fun _ _ => py hn⟩
      · show Gone b (CtrvStateF.next _ _).y
        unfold CtrvStateF.next
        simp only
        split
        · exact (add_gone hb).1.add_left _
        · exact (add_gone hb).1.sub_left _
      · show Gone (!b) (CtrvStateF.next _ _).y
        unfold CtrvStateF.next
        simp only
        split
        · exact (add_gone hb).2.add_left _
        · exact (add_gone hb).2.sub_left _
    · have hn := mean_inf (k := 2) (by decide) 2 (b := b) (Gone.conv (add_gone hb).1 _) (Gone.conv (add_gone hb).2 _) (hx 2)
      rw [hn] at h2
      exact ⟨by simp [numbers, h2, FP.conv], fun h => absurd rfl h⟩
    · have hn := mean_nan_point (k := 0) (by decide) 3
        (conv_nan (next_gone_ctrv hm dt (.inl (hm.addAng (hb.conv _) _))).1) (hx 0)
      exact ⟨position_subset _ (px hn), fun _ _ => px hn⟩
    · have hn := mean_nan_point (k := 0) (by decide) 4
        (conv_nan (next_gone_ctrv hm dt (.inr ⟨b, (add_gone hb).1⟩)).1) (hx 0)
      exact ⟨position_subset _ (px hn), fun _ _ => px hn⟩
  | @ctra o o' hu hc α β κ dt L r hL h =>
    obtain ⟨x, hx, -, e⟩ := h
    obtain ⟨i, rfl, hi⟩ := hk
    obtain ⟨b, hb⟩ := offset_gone (lam := lambdaF (6 : ℕ) α β) (hL.inf hi)
    have h0 : o'.state.x = (x 0).conv binary64 := by rw [e]; rfl
    have h1 : o'.state.y = (x 1).conv binary64 := by rw [e]; rfl
    have h2 : o'.state.v = (x 2).conv binary64 := by rw [e]; rfl
    have h5 : o'.state.a = (x 5).conv binary64 := by rw [e]; rfl
    have px : x 0 = .nan → FP.nan ∈ position (.inr o' : FObj m) := fun h => by
      rw [h] at h0; exact List.mem_cons.2 (.inl h0.symm)
    have py : x 1 = .nan → FP.nan ∈ position (.inr o' : FObj m) := fun h => by
      rw [h] at h1; exact List.mem_cons_of_mem _ (List.mem_singleton.2 h1.symm)
    fin_cases i
    · have hn := mean_inf (k := 0) (by decide) 0 (b := b) (Gone.conv ((add_gone hb).1.add_left _) _)
        (Gone.conv ((add_gone hb).2.add_left _) _) (hx 0)
      exact ⟨position_subset _ (px hn), fun _ _ => px hn⟩
    · have hn := mean_inf (k := 1) (by decide) 1 (b := b) (Gone.conv ((add_gone hb).1.add_left _) _)
        (Gone.conv ((add_gone hb).2.add_left _) _) (hx 1)
      exact ⟨position_subset _ (py hn), fun _ _ => py hn⟩
    · have hn := mean_inf (k := 2) (by decide) 2 (b := b) (Gone.conv ((add_gone hb).1.add_left _) _)
        (Gone.conv ((add_gone hb).2.add_left _) _) (hx 2)
      rw [hn] at h2
      exact ⟨by simp [numbers, h2, FP.conv], fun h => absurd rfl h⟩
    · have hn := mean_nan_point (k := 0) (by decide) 3
        (conv_nan (next_gone_ctra hm dt (.inl (hm.addAng (hb.conv _) _))).1) (hx 0)
      exact ⟨position_subset _ (px hn), fun _ _ => px hn⟩
    · have hn := mean_nan_point (k := 0) (by decide) 4
        (conv_nan (next_gone_ctra hm dt (.inr ⟨b, (add_gone hb).1⟩)).1) (hx 0)
      exact ⟨position_subset _ (px hn), fun _ _ => px hn⟩
    · have hn := mean_inf (k := 5) (by decide) 5 (b := b) (Gone.conv (add_gone hb).1 _) (Gone.conv (add_gone hb).2 _) (hx 5)
      rw [hn] at h5
      exact ⟨by simp [numbers, h5, FP.conv], fun _ h => absurd rfl h⟩

end Mot
