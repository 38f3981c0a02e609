import Verif.Model.FloatMahalanobis
import Verif.Proofs.FloatSums
import Verif.Proofs.FloatPose
/-!
# Special values of the Mahalanobis score
-/

namespace Mot

open Spec

/-! ### Sums: NaN, zero, sign, all orders -/

theorem nan_mul (f : Fmt) (a : FP) : FP.mul f .nan a = .nan := by cases a <;> rfl

theorem SumsTo.nan {f : Fmt} {l : List FP} {x : FP} (h : SumsTo f l x) (hl : FP.nan ∈ l) :
    x = .nan := by
  induction h with
  | one a => exact (List.mem_singleton.1 hl).symm
  | add h1 h2 ih1 ih2 =>
    rcases List.mem_append.1 hl with h | h
    · rw [ih1 h]; exact nan_add _ _
    · rw [ih2 h]; exact add_nan _ _
  | perm hp h ih => exact ih (hp.symm.subset hl)

theorem ofRat_zero (f : Fmt) : FP.ofRat f 0 = .fin 0 := by
  unfold FP.ofRat
  rw [f.round_zero, abs_zero, if_pos (zpow_pos (by norm_num) _)]

theorem add_zero_zero (f : Fmt) : FP.add f (.fin 0) (.fin 0) = .fin 0 := by
  show FP.ofRat f (0 + 0) = _
  rw [add_zero, ofRat_zero]

theorem sub_zero_zero (f : Fmt) : FP.sub f (.fin 0) (.fin 0) = .fin 0 := by
  show FP.ofRat f (0 - 0) = _
  rw [sub_zero, ofRat_zero]

theorem zero_mul_fin (f : Fmt) (q : ℚ) : FP.mul f (.fin 0) (.fin q) = .fin 0 := by
  show FP.ofRat f (0 * q) = _
  rw [zero_mul, ofRat_zero]

theorem fin_mul_zero (f : Fmt) (q : ℚ) : FP.mul f (.fin q) (.fin 0) = .fin 0 := by
  show FP.ofRat f (q * 0) = _
  rw [mul_zero, ofRat_zero]

theorem zero_mul_inf (f : Fmt) (s : Bool) : FP.mul f (.fin 0) (.inf s) = .nan := by
  show (if (0 : ℚ) = 0 then FP.nan else FP.inf (s != decide ((0 : ℚ) < 0))) = _
  rw [if_pos rfl]

theorem inf_mul_zero (f : Fmt) (s : Bool) : FP.mul f (.inf s) (.fin 0) = .nan := by
  show (if (0 : ℚ) = 0 then FP.nan else FP.inf (s != decide ((0 : ℚ) < 0))) = _
  rw [if_pos rfl]

theorem SumsTo.zero {f : Fmt} {l : List FP} {x : FP} (h : SumsTo f l x)
    (hl : ∀ a ∈ l, a = .fin 0) : x = .fin 0 := by
  induction h with
  | one a => exact hl a (by simp)
  | add h1 h2 ih1 ih2 =>
    rw [ih1 fun a ha => hl a (List.mem_append_left _ ha),
      ih2 fun a ha => hl a (List.mem_append_right _ ha)]
    exact add_zero_zero _
  | perm hp h ih => exact ih fun a ha => hl a (hp.subset ha)

/-- zero or NaN -/
def FP.ZN (x : FP) : Prop := x = .fin 0 ∨ x = .nan

theorem SumsTo.zn {f : Fmt} {l : List FP} {x : FP} (h : SumsTo f l x) (hl : ∀ a ∈ l, a.ZN) :
    x.ZN := by
  by_cases hn : FP.nan ∈ l
  · exact .inr (h.nan hn)
  · exact .inl (h.zero fun a ha => (hl a ha).resolve_right fun e => hn (e ▸ ha))

theorem ZN.mul_left {f : Fmt} {a : FP} (h : a.ZN) (b : FP) : (FP.mul f a b).ZN := by
  rcases h with rfl | rfl
  · cases b with
    | nan => exact .inr rfl
    | inf s => exact .inr (zero_mul_inf f s)
    | fin q => exact .inl (zero_mul_fin f q)
  · exact .inr (nan_mul _ _)

theorem ZN.mul_right {f : Fmt} {b : FP} (h : b.ZN) (a : FP) : (FP.mul f a b).ZN := by
  rcases h with rfl | rfl
  · cases a with
    | nan => exact .inr rfl
    | inf s => exact .inr (inf_mul_zero f s)
    | fin q => exact .inl (fin_mul_zero f q)
  · exact .inr (mul_nan _ _)

theorem ZN.sub {f : Fmt} {a b : FP} (h : a.ZN) (h' : b.ZN) : (FP.sub f a b).ZN := by
  rcases h with rfl | rfl
  · rcases h' with rfl | rfl
    · exact .inl (sub_zero_zero f)
    · exact .inr rfl
  · exact .inr (nan_sub _ _)

/-- zero or NaN times something not finite -/
theorem ZN.mul_notFin {f : Fmt} {a b : FP} (h : a.ZN) (h' : b.NotFin) : FP.mul f a b = .nan := by
  rcases h with rfl | rfl
  · cases b with
    | nan => rfl
    | inf s => exact zero_mul_inf f s
    | fin q => exact absurd rfl (h' q)
  · exact nan_mul _ _

theorem one_div_zn {f : Fmt} {d : FP} (h : d.ZN) : (FP.div f (.fin 1) d).NotFin := by
  rcases h with rfl | rfl
  · intro q
    simp [FP.div]
  · intro q
    simp [FP.div]

theorem neg_neg' (a : FP) : a.neg.neg = a := by cases a <;> simp [FP.neg]

theorem mul_neg_left (f : Fmt) (a b : FP) : FP.mul f a.neg b = (FP.mul f a b).neg := by
  cases a with
  | nan => exact (nan_mul _ _).trans (by rw [nan_mul]; rfl)
  | inf s =>
    cases b with
    | nan => rfl
    | inf t => show FP.inf _ = FP.inf _; cases s <;> cases t <;> rfl
    | fin q =>
      show (if q = 0 then FP.nan else FP.inf ((!s) != decide (q < 0))) =
        (if q = 0 then FP.nan else FP.inf (s != decide (q < 0))).neg
      split
      · rfl
      · show FP.inf _ = FP.inf _
        cases s <;> simp
  | fin p =>
    cases b with
    | nan => rfl
    | inf t =>
      show (if -p = 0 then FP.nan else FP.inf (t != decide (-p < 0))) =
        (if p = 0 then FP.nan else FP.inf (t != decide (p < 0))).neg
      by_cases hp : p = 0
      · rw [if_pos hp, if_pos (by rw [hp, neg_zero])]; rfl
      · rw [if_neg hp, if_neg (neg_ne_zero.2 hp)]
        show FP.inf _ = FP.inf _
        rcases lt_or_gt_of_ne hp with h | h
        · rw [decide_eq_true h, decide_eq_false (by linarith : ¬ -p < 0)]; cases t <;> rfl
        · rw [decide_eq_false (by linarith : ¬ p < 0), decide_eq_true (by linarith : -p < 0)]
          cases t <;> rfl
    | fin q =>
      show FP.ofRat f (-p * q) = (FP.ofRat f (p * q)).neg
      rw [neg_mul, ofRat_neg]

theorem mul_comm' (f : Fmt) (a b : FP) : FP.mul f a b = FP.mul f b a := by
  cases a <;> cases b <;> try rfl
  · show FP.inf _ = FP.inf _
    rename_i s t
    cases s <;> cases t <;> rfl
  · show FP.ofRat f _ = FP.ofRat f _
    rw [mul_comm]

theorem add_comm' (f : Fmt) (a b : FP) : FP.add f a b = FP.add f b a := by
  cases a <;> cases b <;> try rfl
  · rename_i s t
    cases s <;> cases t <;> rfl
  · show FP.ofRat f _ = FP.ofRat f _
    rw [add_comm]

theorem mul_neg_right (f : Fmt) (a b : FP) : FP.mul f a b.neg = (FP.mul f a b).neg := by
  rw [mul_comm', mul_neg_left, mul_comm']

theorem add_neg_neg (f : Fmt) (a b : FP) : FP.add f a.neg b.neg = (FP.add f a b).neg := by
  cases a with
  | nan => cases b <;> rfl
  | inf s =>
    cases b with
    | nan => rfl
    | inf t => cases s <;> cases t <;> rfl
    | fin q => rfl
  | fin p =>
    cases b with
    | nan => rfl
    | inf t => rfl
    | fin q =>
      show FP.ofRat f (-p + -q) = (FP.ofRat f (p + q)).neg
      rw [← ofRat_neg]
      congr 1
      ring

theorem SumsTo.neg {f : Fmt} {l : List FP} {x : FP} (h : SumsTo f l x) :
    SumsTo f (l.map FP.neg) x.neg := by
  induction h with
  | one a => exact .one _
  | add h1 h2 ih1 ih2 =>
    rw [List.map_append, ← add_neg_neg]
    exact .add ih1 ih2
  | perm hp h ih => exact .perm (hp.map _) ih

theorem SumsTo.length_one {f : Fmt} {l : List FP} {x : FP} (h : SumsTo f l x) {a : FP}
    (hl : l = [a]) : x = a := by
  induction h with
  | one b => exact List.head_eq_of_cons_eq hl
  | add h1 h2 ih1 ih2 =>
    have p1 := h1.length_pos
    have p2 := h2.length_pos
    have := congrArg List.length hl
    rw [List.length_append, List.length_singleton] at this
    omega
  | perm hp h ih =>
    rw [hl] at hp
    exact ih (List.perm_singleton.1 hp)

theorem SumsTo.length_two {f : Fmt} {l : List FP} {x : FP} (h : SumsTo f l x) {a b : FP}
    (hl : l.Perm [a, b]) : x = FP.add f a b := by
  induction h generalizing a b with
  | one c => exact absurd hl.length_eq (by simp)
  | @add l r p q h1 h2 ih1 ih2 =>
    have p1 := h1.length_pos
    have p2 := h2.length_pos
    have hlen := hl.length_eq
    rw [List.length_append, List.length_cons, List.length_singleton] at hlen
    obtain ⟨c, rfl⟩ := List.length_eq_one_iff.1 (show l.length = 1 by omega)
    obtain ⟨d, rfl⟩ := List.length_eq_one_iff.1 (show r.length = 1 by omega)
    rw [h1.length_one rfl, h2.length_one rfl]
    have hm : c = a ∨ c = b := by
      have := hl.subset (show c ∈ [c] ++ [d] by simp)
      simpa using this
    rcases hm with rfl | rfl
    · have : [d].Perm [b] := (List.perm_cons c).1 hl
      rw [List.perm_singleton] at this
      rw [List.head_eq_of_cons_eq this]
    · have : [d].Perm [a] := (List.perm_cons c).1 (hl.trans (List.Perm.swap _ _ _))
      rw [List.perm_singleton] at this
      rw [List.head_eq_of_cons_eq this, add_comm']
  | perm hp h ih => exact ih (hp.trans hl)

/-- the three possible sums of three numbers -/
theorem SumsTo.length_three {f : Fmt} {l : List FP} {x : FP} (h : SumsTo f l x) {a b c : FP}
    (hl : l.Perm [a, b, c]) :
    x = FP.add f (FP.add f a b) c ∨ x = FP.add f (FP.add f a c) b ∨
      x = FP.add f (FP.add f b c) a := by
  induction h generalizing a b c with
  | one c => exact absurd hl.length_eq (by simp)
  | @add l r p q h1 h2 ih1 ih2 =>
    have p1 := h1.length_pos
    have p2 := h2.length_pos
    have hlen := hl.length_eq
    have key : ∀ {l r : List FP} {p q : FP}, SumsTo f l p → SumsTo f r q → l.length = 1 →
        (l ++ r).Perm [a, b, c] →
        FP.add f p q = FP.add f (FP.add f a b) c ∨ FP.add f p q = FP.add f (FP.add f a c) b ∨
          FP.add f p q = FP.add f (FP.add f b c) a := by
      intro l r p q h1 h2 hl1 hp
      obtain ⟨d, rfl⟩ := List.length_eq_one_iff.1 hl1
      rw [h1.length_one rfl]
      have hm : d = a ∨ d = b ∨ d = c := by
        have := hp.subset (show d ∈ [d] ++ r by simp)
        simpa using this
      rcases hm with rfl | rfl | rfl
      · rw [h2.length_two ((List.perm_cons d).1 hp), add_comm' f d]
        exact .inr (.inr rfl)
      · rw [h2.length_two ((List.perm_cons d).1 (hp.trans (List.Perm.swap _ _ _))), add_comm' f d]
        exact .inr (.inl rfl)
      · have : [a, b, d].Perm [d, a, b] := by
          exact List.perm_append_comm (l₁ := [a, b]) (l₂ := [d])
        rw [h2.length_two ((List.perm_cons d).1 (hp.trans this)), add_comm' f d]
        exact .inl rfl
    rw [List.length_append] at hlen
    simp only [List.length_cons, List.length_nil] at hlen
    by_cases h1l : l.length = 1
    · exact key h1 h2 h1l hl
    · rw [add_comm']
      exact key h2 h1 (by omega) (List.perm_append_comm.trans hl)
  | perm hp h ih => exact ih (hp.trans hl)

/-! ### The form and the inverse -/

theorem IsFormF.notFin {A : Fin 3 → Fin 3 → FP} {d : Fin 3 → FP} {s : FP} (h : IsFormF A d s)
    (hA : ∃ i j, (A i j).NotFin) : s.NotFin := by
  obtain ⟨v, hv, hs⟩ := h
  obtain ⟨i, j, hij⟩ := hA
  have hvj : (v j).NotFin := (hv j).notFin ⟨FP.mul binary32 (d i) (A i j), by
    fin_cases i <;> simp, notFin_mul (.inr hij)⟩
  exact hs.notFin ⟨FP.mul binary32 (v j) (d j), by fin_cases j <;> simp, notFin_mul (.inl hvj)⟩

theorem IsFormF.notFin_diff {A : Fin 3 → Fin 3 → FP} {d : Fin 3 → FP} {s : FP} (h : IsFormF A d s)
    (hd : ∃ i, (d i).NotFin) : s.NotFin := by
  obtain ⟨v, hv, hs⟩ := h
  obtain ⟨i, hi⟩ := hd
  exact hs.notFin ⟨FP.mul binary32 (v i) (d i), by fin_cases i <;> simp, notFin_mul (.inr hi)⟩

theorem IsFormF.nan {A : Fin 3 → Fin 3 → FP} {d : Fin 3 → FP} {s : FP} (h : IsFormF A d s)
    (hA : ∃ i j, A i j = .nan) : s = .nan := by
  obtain ⟨v, hv, hs⟩ := h
  obtain ⟨i, j, hij⟩ := hA
  have hvj : v j = .nan := (hv j).nan (by
    have : FP.mul binary32 (d i) (A i j) = .nan := by rw [hij, mul_nan]
    rw [← this]
    fin_cases i <;> simp)
  exact hs.nan (by
    have : FP.mul binary32 (v j) (d j) = .nan := by rw [hvj, nan_mul]
    rw [← this]
    fin_cases j <;> simp)

theorem IsFormF.nan_diff {A : Fin 3 → Fin 3 → FP} {d : Fin 3 → FP} {s : FP} (h : IsFormF A d s)
    (hd : ∃ i, d i = .nan) : s = .nan := by
  obtain ⟨v, hv, hs⟩ := h
  obtain ⟨i, hi⟩ := hd
  exact hs.nan (by
    have : FP.mul binary32 (v i) (d i) = .nan := by rw [hi, mul_nan]
    rw [← this]
    fin_cases i <;> simp)

theorem IsFormF.neg {A : Fin 3 → Fin 3 → FP} {d : Fin 3 → FP} {s : FP} (h : IsFormF A d s) :
    IsFormF A (fun i => (d i).neg) s := by
  obtain ⟨v, hv, hs⟩ := h
  refine ⟨fun j => (v j).neg, fun j => ?_, ?_⟩
  · have := (hv j).neg
    simpa only [List.map_cons, List.map_nil, mul_neg_left] using this
  · simpa only [mul_neg_left, mul_neg_right, neg_neg'] using hs

/-- the form of a zero vector -/
theorem IsFormF.zero {A : Fin 3 → Fin 3 → FP} {d : Fin 3 → FP} {s : FP} (h : IsFormF A d s)
    (hd : ∀ i, d i = .fin 0) :
    (s = .fin 0 ↔ ∀ i j, ∃ q, A i j = .fin q) ∧ (s = .nan ↔ ∃ i j, (A i j).NotFin) := by
  obtain ⟨v, hv, hs⟩ := h
  by_cases hA : ∀ i j, ∃ q, A i j = .fin q
  · have hvz : ∀ j, v j = .fin 0 := fun j => (hv j).zero fun a ha => by
      simp only [List.mem_cons, List.not_mem_nil, or_false] at ha
      rcases ha with rfl | rfl | rfl
      · obtain ⟨q, hq⟩ := hA 0 j; rw [hd, hq, zero_mul_fin]
      · obtain ⟨q, hq⟩ := hA 1 j; rw [hd, hq, zero_mul_fin]
      · obtain ⟨q, hq⟩ := hA 2 j; rw [hd, hq, zero_mul_fin]
    have hz : s = .fin 0 := hs.zero fun a ha => by
      simp only [List.mem_cons, List.not_mem_nil, or_false] at ha
      rcases ha with rfl | rfl | rfl <;> rw [hvz, hd, zero_mul_fin]
    refine ⟨⟨fun _ => hA, fun _ => hz⟩, ⟨fun h => ?_, ?_⟩⟩
    · rw [hz] at h; cases h
    · rintro ⟨i, j, hij⟩
      obtain ⟨q, hq⟩ := hA i j
      exact absurd hq (hij q)
  · push Not at hA
    obtain ⟨i, j, hij⟩ := hA
    have hvj : v j = .nan := (hv j).nan (by
      have : FP.mul binary32 (d i) (A i j) = .nan := by
        rw [hd]
        exact ZN.mul_notFin (.inl rfl) hij
      rw [← this]
      fin_cases i <;> simp)
    have hn : s = .nan := hs.nan (by
      have : FP.mul binary32 (v j) (d j) = .nan := by rw [hvj, nan_mul]
      rw [← this]
      fin_cases j <;> simp)
    refine ⟨⟨fun h => ?_, fun h => ?_⟩, ⟨fun _ => ⟨i, j, hij⟩, fun _ => hn⟩⟩
    · rw [hn] at h; cases h
    · obtain ⟨q, hq⟩ := h i j
      exact absurd hq (hij q)

theorem poseDiffF_swap (p q : FPose) (i : Fin 3) : poseDiffF q p i = (poseDiffF p q i).neg :=
  sub_swap _ _ _

/-- a row and a column of zeros: every other cofactor is zero or NaN -/
theorem cofactor_zn {C : Fin 3 → Fin 3 → FP} {k : Fin 3} (hr : ∀ j, C k j = .fin 0)
    (hc : ∀ i, C i k = .fin 0) {i j : Fin 3} (h : ¬ (i = k ∧ j = k)) : (cofactorF C i j).ZN := by
  unfold cofactorF
  have hz : FP.ZN (.fin 0) := .inl rfl
  have three : ∀ a b : Fin 3, a ≠ b → a + 1 = b ∨ a + 2 = b := by decide
  rcases not_and_or.1 h with hi | hj
  · rcases three i k hi with h1 | h2
    · rw [h1, hr, hr]
      exact ZN.sub (ZN.mul_left hz _) (ZN.mul_left hz _)
    · rw [h2, hr, hr]
      exact ZN.sub (ZN.mul_right hz _) (ZN.mul_right hz _)
  · rcases three j k hj with h1 | h2
    · rw [h1, hc, hc]
      exact ZN.sub (ZN.mul_left hz _) (ZN.mul_right hz _)
    · rw [h2, hc, hc]
      exact ZN.sub (ZN.mul_right hz _) (ZN.mul_left hz _)

theorem det_zn {C : Fin 3 → Fin 3 → FP} {k : Fin 3} (hr : ∀ j, C k j = .fin 0)
    (hc : ∀ i, C i k = .fin 0) {d : FP} (h : IsDet3F C d) : d.ZN := by
  have hz : FP.ZN (.fin 0) := .inl rfl
  have term : ∀ i, (FP.mul binary32 (cofactorF C i 0) (C i 0)).ZN := by
    intro i
    by_cases hk : i = k ∧ 0 = k
    · obtain ⟨rfl, -⟩ := hk
      rw [hr]
      exact ZN.mul_right hz _
    · exact ZN.mul_left (cofactor_zn hr hc hk) _
  exact SumsTo.zn h fun a ha => by
    simp only [List.mem_cons, List.not_mem_nil, or_false] at ha
    rcases ha with rfl | rfl | rfl <;> exact term _

theorem sqrt_notFin {f : Fmt} {s : FP} (h : s.NotFin) : (FP.sqrt f s).NotFin := by
  cases s with
  | nan => exact h
  | inf n => cases n <;> intro q <;> simp [FP.sqrt]
  | fin q => exact absurd rfl (h q)

theorem sqrt_cases {f : Fmt} (hf : 2 ≤ f.prec) (s : FP) :
    FP.sqrt f s = .nan ∨ FP.sqrt f s = .inf false ∨ ∃ q, FP.sqrt f s = .fin q ∧ 0 ≤ q := by
  cases s with
  | nan => exact .inl rfl
  | inf n => cases n
             · exact .inr (.inl rfl)
             · exact .inl rfl
  | fin q =>
    show (if q < 0 then FP.nan else FP.fin (f.sqrt q)) = _ ∨ _
    by_cases h : q < 0
    · exact .inl (if_pos h)
    · refine .inr (.inr ⟨f.sqrt q, if_neg h, ?_⟩)
      have := f.sqrt_mono hf le_rfl (not_lt.1 h)
      simpa [Fmt.sqrt] using this

/-! ### Evaluation in all orders -/

/-- the possible sums of three numbers -/
def sums3 (a b c : FP) : List FP :=
  [FP.add binary32 (FP.add binary32 a b) c, FP.add binary32 (FP.add binary32 a c) b,
    FP.add binary32 (FP.add binary32 b c) a]

theorem SumsTo.mem_sums3 {a b c x : FP} (h : SumsTo binary32 [a, b, c] x) : x ∈ sums3 a b c := by
  have := h.length_three (List.Perm.refl _)
  simpa [sums3] using this

/-- the possible computed distances -/
def distances3 (C : Fin 3 → Fin 3 → FP) (e : Fin 3 → FP) : List FP :=
  (sums3 (FP.mul binary32 (cofactorF C 0 0) (C 0 0)) (FP.mul binary32 (cofactorF C 1 0) (C 1 0))
    (FP.mul binary32 (cofactorF C 2 0) (C 2 0))).flatMap fun d =>
  let A := inverse3F C d
  let row := fun j => sums3 (FP.mul binary32 (e 0) (A 0 j)) (FP.mul binary32 (e 1) (A 1 j))
    (FP.mul binary32 (e 2) (A 2 j))
  (row 0).flatMap fun v0 => (row 1).flatMap fun v1 => (row 2).flatMap fun v2 =>
    (sums3 (FP.mul binary32 v0 (e 0)) (FP.mul binary32 v1 (e 1)) (FP.mul binary32 v2 (e 2))).map
      (FP.sqrt binary32)

theorem IsMahalanobisF.mem_distances3 {C : Fin 3 → Fin 3 → FP} {p q : FPose} {r : FP}
    (h : IsMahalanobisF C p q r) : r ∈ distances3 C (poseDiffF p q) := by
  obtain ⟨d, hd, s, ⟨v, hv, hs⟩, rfl⟩ := h
  unfold distances3
  refine List.mem_flatMap.2 ⟨d, SumsTo.mem_sums3 hd, ?_⟩
  refine List.mem_flatMap.2 ⟨v 0, (hv 0).mem_sums3, ?_⟩
  refine List.mem_flatMap.2 ⟨v 1, (hv 1).mem_sums3, ?_⟩
  refine List.mem_flatMap.2 ⟨v 2, (hv 2).mem_sums3, ?_⟩
  exact List.mem_map.2 ⟨s, hs.mem_sums3, rfl⟩

/-- a computed Mahalanobis distance is NaN, +∞ or a number that is not negative -/
theorem mahalanobis_cases {C : Fin 3 → Fin 3 → FP} {p q : FPose} {r : FP}
    (h : IsMahalanobisF C p q r) :
    r = .nan ∨ r = .inf false ∨ ∃ q, r = .fin q ∧ 0 ≤ q ∧ q ≤ fltMaxQ := by
  obtain ⟨d, -, s, ⟨v, -, hs⟩, rfl⟩ := h
  have hm := hs.mem_sums3
  clear hs
  cases s with
  | nan => exact .inl rfl
  | inf n => cases n <;> simp [FP.sqrt]
  | fin q =>
    have hq : |q| < 2 ^ binary32.emax := by
      simp only [sums3, List.mem_cons, List.not_mem_nil, or_false] at hm
      rcases hm with hm | hm | hm <;> exact add_cases _ hm.symm
    by_cases h0 : q < 0
    · exact .inl (if_pos h0)
    · refine .inr (.inr ⟨_, if_neg h0, binary32.sqrt_nonneg (not_lt.1 h0), ?_⟩)
      rw [b32_emax] at hq
      have hq' : (q : ℝ) ≤ 2 ^ 128 := by
        have : ((|q| : ℚ) : ℝ) < (((2 : ℚ) ^ 128 : ℚ) : ℝ) := Rat.cast_lt.2 hq
        push_cast at this
        exact (le_abs_self _).trans this.le
      have hs : √(q : ℝ) ≤ 2 ^ 64 :=
        Real.sqrt_le_iff.2 ⟨by positivity, hq'.trans (by norm_num)⟩
      have he := (abs_le.1 (b32_sqrt_std (not_lt.1 h0))).2
      have : (binary32.sqrt q : ℝ) ≤ (fltMaxQ : ℝ) := by
        unfold fltMaxQ
        push_cast
        norm_num at *
        linarith
      exact_mod_cast this

/-! ### Diagonal covariances -/

/-- a diagonal matrix -/
def diagF (a : Fin 3 → FP) (i j : Fin 3) : FP := if i = j then a i else .fin 0

theorem cofactor_diag (a : Fin 3 → ℚ) (i : Fin 3) :
    cofactorF (diagF fun k => .fin (a k)) i i =
      FP.sub binary32 (FP.mul binary32 (.fin (a (i + 1))) (.fin (a (i + 2)))) (.fin 0) := by
  unfold cofactorF diagF
  have h1 : i + 1 ≠ i + 2 := by revert i; decide
  rw [if_pos rfl, if_pos rfl, if_neg h1, if_neg h1.symm, fin_mul_zero]

theorem cofactor_offdiag (a : Fin 3 → ℚ) {i j : Fin 3} (h : i ≠ j) :
    cofactorF (diagF fun k => .fin (a k)) i j = .fin 0 := by
  unfold cofactorF diagF
  have key : ∀ i j : Fin 3, i ≠ j → (i + 1 ≠ j + 1 ∧ i + 2 ≠ j + 2) ∧
      (i + 1 ≠ j + 2 ∨ i + 2 ≠ j + 1) := by decide
  obtain ⟨⟨h1, h2⟩, h3⟩ := key i j h
  rw [if_neg h1, if_neg h2, zero_mul_fin]
  have : FP.mul binary32 (if i + 1 = j + 2 then .fin (a (i + 1)) else .fin 0)
      (if i + 2 = j + 1 then .fin (a (i + 2)) else .fin 0) = .fin 0 := by
    rcases h3 with h3 | h3
    · rw [if_neg h3]
      split
      · exact zero_mul_fin _ _
      · exact zero_mul_fin _ _
    · rw [if_neg h3]
      split
      · exact fin_mul_zero _ _
      · exact fin_mul_zero _ _
  rw [this, sub_zero_zero]

end Mot
