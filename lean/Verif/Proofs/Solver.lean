import Verif.Model.Solver
import Verif.Spec.Matching
import Mathlib.Tactic.Ring
import Mathlib.Tactic.Linarith
import Mathlib.Data.Fintype.Card
import Mathlib.Data.List.NodupEquivFin
import Mathlib.Data.Finset.Card
import Mathlib.Algebra.Order.BigOperators.Group.Finset
import Mathlib.Algebra.BigOperators.Group.Finset.Basic

/-!
# The assignment solver finds an optimal assignment

Helper lemmas for `Verif.Props.Solver`.
-/

namespace Mot

open Spec

theorem foldOutcome_inv {σ α : Type} {f : σ → α → Outcome σ} {I : σ → Prop} {l : List α}
    (hf : ∀ s, ∀ a ∈ l, I s → ∃ s', f s a = .ok s' ∧ I s') {s : σ} (hs : I s) :
    ∃ s', foldOutcome f l s = .ok s' ∧ I s' := by
  induction l generalizing s with
  | nil => exact ⟨s, rfl, hs⟩
  | cons a l ih =>
    obtain ⟨s', h, hs'⟩ := hf s a (by simp) hs
    obtain ⟨s'', h'', hs''⟩ := ih (fun s b hb => hf s b (by simp [hb])) hs'
    exact ⟨s'', by simp [foldOutcome, h, Outcome.bind, h''], hs''⟩

/-- a property of the elements passed so far -/
theorem foldOutcome_prefix {σ α : Type} {f : σ → α → Outcome σ} {I : List α → σ → Prop}
    {l : List α}
    (hf : ∀ d a r s, l = d ++ a :: r → I d s → ∃ s', f s a = .ok s' ∧ I (d ++ [a]) s') {s : σ}
    (hs : I [] s) :
    ∃ s', foldOutcome f l s = .ok s' ∧ I l s' := by
  suffices H : ∀ r d s, l = d ++ r → I d s → ∃ s', foldOutcome f r s = .ok s' ∧ I l s' from
    H l [] s rfl hs
  intro r
  induction r with
  | nil => intro d s hl hs; exact ⟨s, rfl, by simpa [hl] using hs⟩
  | cons a r ih =>
    intro d s hl hs
    obtain ⟨s', h, hs'⟩ := hf d a r s hl hs
    obtain ⟨s'', h'', hs''⟩ := ih (d ++ [a]) s' (by simp [hl]) hs'
    exact ⟨s'', by simp [foldOutcome, h, Outcome.bind, h''], hs''⟩

namespace Km

variable {n : ℕ}

/-- the arithmetic has room for the numbers that come up with this matrix: `R` bounds the
differences inside its rows -/
structure Fits (A : IntArith) (c : Fin n → Fin n → ℤ) (R : ℤ) : Prop where
  range : ∀ x y y', c x y - c x y' ≤ R
  small : ∀ z, 0 ≤ z → z ≤ 2 * R → A.chk z = .ok z
  row : ∀ x y y' z, c x y ≤ z → z ≤ c x y' + R → A.chk z = .ok z
  top : 2 * R < A.top

/-- labels and matching between two rounds -/
structure Good (c : Fin n → Fin n → ℤ) (s : State n) : Prop where
  feas : ∀ x y, c x y ≤ s.lx x + s.ly y
  upper : ∀ x, ∃ y, s.lx x ≤ c x y
  nonneg : ∀ y, 0 ≤ s.ly y
  free : ∀ y, s.yx y = none → s.ly y = 0
  cons : ∀ x y, s.xy x = some y ↔ s.yx y = some x
  tight : ∀ x y, s.xy x = some y → c x y = s.lx x + s.ly y

/-- an unmatched row leaves an unmatched column -/
theorem Good.exists_free {c : Fin n → Fin n → ℤ} {s : State n} (h : Good c s) {r : Fin n}
    (hr : s.xy r = none) : ∃ y, s.yx y = none := by
  by_contra hno
  push Not at hno
  have ht : ∀ y, ∃ x, s.yx y = some x := fun y => Option.ne_none_iff_exists'.1 (hno y)
  choose f hf using ht
  have hinj : Function.Injective f := by
    intro y y' hyy
    have h1 := (h.cons _ _).2 (hf y)
    have h2 := (h.cons _ _).2 (hf y')
    rw [hyy, h2] at h1
    exact (Option.some.inj h1).symm
  obtain ⟨y, hy⟩ := (Finite.injective_iff_surjective.1 hinj) r
  have := (h.cons _ _).2 (hf y)
  rw [hy, hr] at this
  cases this

/-- bounds of the labels while a column is unmatched -/
theorem Good.bounds {A : IntArith} {c : Fin n → Fin n → ℤ} {R : ℤ} (hF : Fits A c R)
    {s : State n} (h : Good c s) {y₀ : Fin n} (hy : s.yx y₀ = none) :
    0 ≤ R ∧ (∀ x, c x y₀ ≤ s.lx x) ∧ ∀ y, s.ly y ≤ R := by
  have hR : 0 ≤ R := by have := hF.range y₀ y₀ y₀; linarith
  have h1 : ∀ x, c x y₀ ≤ s.lx x := fun x => by
    have := h.feas x y₀; rw [h.free _ hy] at this; linarith
  refine ⟨hR, h1, fun y => ?_⟩
  rcases hyx : s.yx y with _ | x
  · rw [h.free _ hyx]; exact hR
  · have ht := h.tight x y ((h.cons _ _).2 hyx)
    have := hF.range x y y₀
    have := h1 x
    linarith

/-- `lx[x] + ly[y]` and `lx[x] + ly[y] - cost(x,y)` fit -/
theorem Good.sum_fits {A : IntArith} {c : Fin n → Fin n → ℤ} {R : ℤ} (hF : Fits A c R)
    {s : State n} (h : Good c s) {y₀ : Fin n} (hy : s.yx y₀ = none) (x y : Fin n) :
    A.chk (s.lx x + s.ly y) = .ok (s.lx x + s.ly y) ∧
    A.chk (s.lx x + s.ly y - c x y) = .ok (s.lx x + s.ly y - c x y) ∧
    0 ≤ s.lx x + s.ly y - c x y ∧ s.lx x + s.ly y - c x y < A.top := by
  obtain ⟨hR, h1, h2⟩ := h.bounds hF hy
  obtain ⟨y', hy'⟩ := h.upper x
  have hf := h.feas x y
  have := h2 y
  have := hF.range x y' y
  have := hF.top
  refine ⟨hF.row x y y' _ hf (by linarith), hF.small _ (by linarith) (by linarith), by linarith,
    by linarith⟩

/-- the search tree: the rows in the order in which they came in, newest first -/
inductive Tree (aug xy : Fin n → Option (Fin n)) (P : Fin n → Fin n → Prop) (r : Fin n) :
    List (Fin n) → Prop
  | root : aug r = none → xy r = none → Tree aug xy P r [r]
  | cons {L x p y} : Tree aug xy P r L → x ∉ L → p ∈ L → aug x = some p → xy x = some y → P p y →
      Tree aug xy P r (x :: L)

theorem Tree.nodup {aug xy : Fin n → Option (Fin n)} {P : Fin n → Fin n → Prop} {r : Fin n}
    {L : List (Fin n)} (h : Tree aug xy P r L) : L.Nodup := by
  induction h with
  | root => simp
  | cons _ hx _ _ _ _ ih => exact List.nodup_cons.2 ⟨hx, ih⟩

theorem Tree.congr {aug aug' xy : Fin n → Option (Fin n)} {P P' : Fin n → Fin n → Prop}
    {r : Fin n} {L : List (Fin n)} (h : Tree aug xy P r L) (ha : ∀ x ∈ L, aug' x = aug x)
    (hP : ∀ p ∈ L, ∀ y, P p y → P' p y) : Tree aug' xy P' r L := by
  induction h with
  | root h1 h2 => exact .root (by rw [ha _ (by simp), h1]) h2
  | cons _ hx hp h1 h2 h3 ih =>
    exact .cons (ih (fun x hx => ha x (by simp [hx])) fun p hp => hP p (by simp [hp])) hx hp
      (by rw [ha _ (by simp), h1]) h2 (hP _ (by simp [hp]) _ h3)

theorem Tree.root_mem {aug xy : Fin n → Option (Fin n)} {P : Fin n → Fin n → Prop} {r : Fin n}
    {L : List (Fin n)} (h : Tree aug xy P r L) : r ∈ L := by
  induction h with
  | root => simp
  | cons _ _ _ _ _ _ ih => simp [ih]

/-- rows of the tree other than the root are matched -/
theorem Tree.matched {aug xy : Fin n → Option (Fin n)} {P : Fin n → Fin n → Prop} {r : Fin n}
    {L : List (Fin n)} (h : Tree aug xy P r L) {x : Fin n} (hx : x ∈ L) :
    x = r ∨ ∃ y p, xy x = some y ∧ P p y := by
  induction h with
  | root => simp at hx; exact .inl hx
  | cons _ _ _ _ h2 h3 ih =>
    rcases List.mem_cons.1 hx with rfl | hx
    · exact .inr ⟨_, _, h2, h3⟩
    · exact ih hx

theorem Tree.root_none {aug xy : Fin n → Option (Fin n)} {P : Fin n → Fin n → Prop} {r : Fin n}
    {L : List (Fin n)} (h : Tree aug xy P r L) : xy r = none ∧ aug r = none := by
  induction h with
  | root h1 h2 => exact ⟨h2, h1⟩
  | cons _ _ _ _ _ _ ih => exact ih

/-- what holds during a search, apart from the slacks -/
structure Busy (c : Fin n → Fin n → ℤ) (r : Fin n) (L : List (Fin n)) (s : State n) : Prop where
  good : Good c s
  tree : Tree s.aug s.xy (fun p y => c p y = s.lx p + s.ly y ∧ s.T y = true) r L
  mem : ∀ x, s.S x = true ↔ x ∈ L
  col : ∀ y, s.T y = true → ∃ x, s.yx y = some x ∧ x ∈ L
  queue : ∀ x ∈ s.q, x ∈ L
  start : ∀ x y, s.found = some (x, y) → x ∈ L ∧ s.yx y = none ∧ c x y = s.lx x + s.ly y

/-- the slacks are the smallest slacks of the rows in `K` -/
def SlackOf (c : Fin n → Fin n → ℤ) (K : List (Fin n)) (s : State n) (y : Fin n) : Prop :=
  (∀ x ∈ K, s.slack y ≤ s.lx x + s.ly y - c x y) ∧
  s.slackx y ∈ K ∧ s.slack y = s.lx (s.slackx y) + s.ly y - c (s.slackx y) y

variable {A : IntArith} {c : Fin n → Fin n → ℤ} {R : ℤ}

/-- `compute_slack` brings the slacks up to date with a new row, and changes nothing else -/
theorem computeSlack_ok (hF : Fits A c R) {s : State n} (hg : Good c s) {y₀ : Fin n}
    (hy : s.yx y₀ = none) (x : Fin n) {K : List (Fin n)}
    (hK : K = [] ∧ (∀ y, s.slack y = A.top) ∨ ∀ y, SlackOf c K s y) :
    ∃ sl sx, computeSlack A c x s = .ok { s with slack := sl, slackx := sx } ∧
      ∀ y, SlackOf c (x :: K) { s with slack := sl, slackx := sx } y := by
  have key := foldOutcome_prefix (f := slackStep A c x) (l := List.finRange n)
    (I := fun d s' => ∃ sl sx, s' = { s with slack := sl, slackx := sx } ∧
      (∀ y ∈ d, SlackOf c (x :: K) s' y) ∧
      ∀ y ∉ d, sl y = s.slack y ∧ sx y = s.slackx y) (s := s) ?_ ⟨s.slack, s.slackx, rfl, by simp, by simp⟩
  · obtain ⟨s', h, sl, sx, rfl, h1, -⟩ := key
    exact ⟨sl, sx, h, fun y => h1 y (List.mem_finRange y)⟩
  · rintro d y r s' hl ⟨sl, sx, rfl, h1, h2⟩
    have hyd : y ∉ d := by
      have := List.nodup_finRange n
      rw [hl, List.nodup_append] at this
      intro hm
      exact this.2.2 y hm y (by simp) rfl
    obtain ⟨e1, e2, e3, e4⟩ := hg.sum_fits hF hy x y
    obtain ⟨h2y, h2y'⟩ := h2 y hyd
    unfold slackStep
    simp only [e1, e2, Outcome.bind]
    by_cases hlt : s.lx x + s.ly y - c x y < sl y
    · rw [if_pos hlt]
      refine ⟨_, rfl, _, _, rfl, ?_, ?_⟩
      · intro z hz
        by_cases hzy : z = y
        · subst hzy
          refine ⟨?_, by simp, by simp⟩
          intro x' hx'
          simp only [Function.update_self]
          rcases List.mem_cons.1 hx' with rfl | hx'
          · exact le_refl _
          · rcases hK with ⟨rfl, -⟩ | hK
            · simp at hx'
            · have := (hK z).1 x' hx'
              rw [h2y] at hlt
              exact hlt.le.trans this
        · have hzd : z ∈ d := by simpa [hzy] using hz
          have := h1 z hzd
          simpa [SlackOf, Function.update_of_ne hzy] using this
      · intro z hz
        simp only [List.mem_append, List.mem_singleton, not_or] at hz
        simpa [Function.update_of_ne hz.2] using h2 z hz.1
    · rw [if_neg hlt]
      refine ⟨_, rfl, sl, sx, rfl, ?_, ?_⟩
      · intro z hz
        by_cases hzy : z = y
        · subst hzy
          rcases hK with ⟨rfl, htop⟩ | hK
          · rw [h2y, htop] at hlt
            exact absurd e4 hlt
          · obtain ⟨k1, k2, k3⟩ := hK z
            refine ⟨?_, ?_, ?_⟩
            · intro x' hx'
              simp only [h2y]
              rcases List.mem_cons.1 hx' with rfl | hx'
              · rw [h2y] at hlt; exact not_lt.1 hlt
              · exact k1 x' hx'
            · simp only [h2y']; exact List.mem_cons_of_mem _ k2
            · simp only [h2y, h2y']; exact k3
        · exact h1 z (by simpa [hzy] using hz)
      · intro z hz
        simp only [List.mem_append, List.mem_singleton, not_or] at hz
        exact h2 z hz.1

/-- a matched column enters the tree together with its row -/
theorem enter_ok (hF : Fits A c R) {r : Fin n} {L : List (Fin n)} {s : State n}
    (hb : Busy c r L s) (hs : ∀ y, SlackOf c L s y) {y₀ : Fin n} (hy₀ : s.yx y₀ = none)
    {y x' p : Fin n} (hyx : s.yx y = some x') (hT : s.T y = false) (hp : p ∈ L)
    (ht : c p y = s.lx p + s.ly y) (hfo : s.found = none) :
    x' ∉ L ∧ ∃ s', enter A c y x' p s = .ok s' ∧ Busy c r (x' :: L) s' ∧
      (∀ y, SlackOf c (x' :: L) s' y) ∧ s'.yx = s.yx ∧ s'.xy = s.xy ∧
      s'.T = Function.update s.T y true ∧ s'.q = s.q ++ [x'] ∧ s'.found = none ∧
      s'.lx = s.lx ∧ s'.ly = s.ly := by
  have hx' : x' ∉ L := by
    intro hm
    have hxy := (hb.good.cons _ _).2 hyx
    rcases hb.tree.matched hm with rfl | ⟨y', p', h1, h2⟩
    · rw [hb.tree.root_none.1] at hxy; cases hxy
    · rw [hxy] at h1
      cases h1
      rw [hT] at h2; simp at h2
  refine ⟨hx', ?_⟩
  obtain ⟨sl, sx, h1, h2⟩ := computeSlack_ok (A := A) hF
    (s := { s with T := Function.update s.T y true, q := s.q ++ [x'],
                   aug := Function.update s.aug x' (some p), S := Function.update s.S x' true })
    ⟨hb.good.feas, hb.good.upper, hb.good.nonneg, hb.good.free, hb.good.cons, hb.good.tight⟩
    (y₀ := y₀) hy₀ x' (K := L) (.inr hs)
  refine ⟨_, h1, ?_, h2, rfl, rfl, rfl, rfl, hfo, rfl, rfl⟩
  refine ⟨⟨hb.good.feas, hb.good.upper, hb.good.nonneg, hb.good.free, hb.good.cons,
    hb.good.tight⟩, ?_, ?_, ?_, ?_, ?_⟩
  · refine .cons (p := p) (y := y) (hb.tree.congr ?_ ?_) hx' hp (by simp)
      ((hb.good.cons _ _).2 hyx) ⟨ht, by simp⟩
    · intro z hz
      have : z ≠ x' := by rintro rfl; exact hx' hz
      simp [Function.update_of_ne this]
    · rintro q - z ⟨h3, h4⟩
      refine ⟨h3, ?_⟩
      by_cases hzy : z = y
      · subst hzy; simp
      · simpa [Function.update_of_ne hzy] using h4
  · intro z
    by_cases hz : z = x'
    · subst hz; simp
    · simp [hb.mem z, hz]
  · intro z hz
    by_cases hzy : z = y
    · subst hzy; exact ⟨x', hyx, by simp⟩
    · simp only [Function.update_of_ne hzy] at hz
      obtain ⟨w, hw, hwL⟩ := hb.col z hz
      exact ⟨w, hw, by simp [hwL]⟩
  · intro z hz
    rcases List.mem_append.1 hz with hz | hz
    · simp [hb.queue z hz]
    · simp at hz; simp [hz]
  · intro a b hab
    simp [hfo] at hab

/-- what a search keeps; `M` bounds the number of passes left for the queue -/
structure Search (c : Fin n → Fin n → ℤ) (r y₀ : Fin n) (xy yx : Fin n → Option (Fin n))
    (T₀ : Fin n → Bool) (M : ℕ) (L : List (Fin n)) (s : State n) : Prop where
  busy : Busy c r L s
  slack : ∀ y, SlackOf c L s y
  xy_eq : s.xy = xy
  yx_eq : s.yx = yx
  free : yx y₀ = none
  mono : ∀ y, T₀ y = true → s.T y = true
  count : s.q.length + n ≤ M + L.length

theorem Search.found {r y₀ : Fin n} {xy yx : Fin n → Option (Fin n)} {T₀ : Fin n → Bool} {M : ℕ}
    {L : List (Fin n)} {s : State n} (h : Search c r y₀ xy yx T₀ M L s) {x y : Fin n} (hx : x ∈ L)
    (hy : s.yx y = none) (ht : c x y = s.lx x + s.ly y) :
    Search c r y₀ xy yx T₀ M L { s with found := some (x, y) } :=
  ⟨⟨⟨h.busy.good.feas, h.busy.good.upper, h.busy.good.nonneg, h.busy.good.free, h.busy.good.cons,
    h.busy.good.tight⟩, h.busy.tree, h.busy.mem, h.busy.col, h.busy.queue, by
      intro a b hab
      simp only [Option.some.injEq, Prod.mk.injEq] at hab
      obtain ⟨rfl, rfl⟩ := hab
      exact ⟨hx, hy, ht⟩⟩, h.slack, h.xy_eq, h.yx_eq, h.free, h.mono, h.count⟩

theorem Search.enter (hF : Fits A c R) {r y₀ : Fin n} {xy yx : Fin n → Option (Fin n)}
    {T₀ : Fin n → Bool} {M : ℕ} {L : List (Fin n)} {s : State n}
    (h : Search c r y₀ xy yx T₀ M L s) {y x' p : Fin n} (hyx : s.yx y = some x')
    (hT : s.T y = false) (hp : p ∈ L) (ht : c p y = s.lx p + s.ly y) (hfo : s.found = none) :
    s.S x' = false ∧ ∃ s', enter A c y x' p s = .ok s' ∧ Search c r y₀ xy yx T₀ M (x' :: L) s' ∧
      s'.T y = true ∧ (∀ z, s.T z = true → s'.T z = true) ∧ s'.lx = s.lx ∧ s'.ly = s.ly := by
  obtain ⟨h1, s', h2, h3, h4, h5, h6, h7, h8, h9, h10, h11⟩ :=
    enter_ok hF h.busy h.slack (y₀ := y₀) (by rw [h.yx_eq, h.free]) hyx hT hp ht hfo
  refine ⟨by by_contra hS; exact h1 ((h.busy.mem x').1 (by simpa using hS)), s', h2,
    ⟨h3, h4, h6.trans h.xy_eq, h5.trans h.yx_eq, h.free, ?_, ?_⟩, by simp [h7], ?_, h10, h11⟩
  · intro z hz
    rw [h7]
    by_cases hzy : z = y
    · subst hzy; simp
    · simpa [Function.update_of_ne hzy] using h.mono z hz
  · have := h.count
    rw [h8]; simp; omega
  · intro z hz
    rw [h7]
    by_cases hzy : z = y
    · subst hzy; simp
    · simpa [Function.update_of_ne hzy] using hz

theorem Search.pop {r y₀ : Fin n} {xy yx : Fin n → Option (Fin n)}
    {T₀ : Fin n → Bool} {M : ℕ} {L : List (Fin n)} {s : State n}
    (h : Search c r y₀ xy yx T₀ (M + 1) L s) {x : Fin n} {q : List (Fin n)} (hq : s.q = x :: q) :
    x ∈ L ∧ Search c r y₀ xy yx T₀ M L { s with q := q } := by
  refine ⟨h.busy.queue x (by simp [hq]), ⟨⟨h.busy.good.feas, h.busy.good.upper,
    h.busy.good.nonneg, h.busy.good.free, h.busy.good.cons,
    h.busy.good.tight⟩, h.busy.tree, h.busy.mem, h.busy.col, fun z hz =>
      h.busy.queue z (by simp [hq, show z ∈ q from hz]), h.busy.start⟩, h.slack, h.xy_eq, h.yx_eq, h.free,
      h.mono, ?_⟩
  have := h.count
  simp [hq] at this ⊢
  omega

/-- a row of the queue is scanned -/
theorem scan_ok (hF : Fits A c R) {r y₀ : Fin n} {xy yx : Fin n → Option (Fin n)}
    {T₀ : Fin n → Bool} {M : ℕ} {L : List (Fin n)} {s : State n}
    (h : Search c r y₀ xy yx T₀ M L s) {x : Fin n} (hx : x ∈ L) :
    ∃ s', foldOutcome (scanStep A c x) (List.finRange n) s = .ok s' ∧
      ∃ L', Search c r y₀ xy yx T₀ M L' s' := by
  have key := foldOutcome_inv (f := scanStep A c x) (l := List.finRange n) (s := s)
    (I := fun s => ∃ L, x ∈ L ∧ Search c r y₀ xy yx T₀ M L s) ?_ ⟨L, hx, h⟩
  · obtain ⟨s', h1, L', -, h2⟩ := key
    exact ⟨s', h1, L', h2⟩
  · rintro s y - ⟨L, hx, h⟩
    unfold scanStep
    rcases hfo : s.found with _ | f
    · have hy₀ : s.yx y₀ = none := by rw [h.yx_eq, h.free]
      obtain ⟨e1, -⟩ := h.busy.good.sum_fits hF hy₀ x y
      simp only [Option.isSome_none, Bool.false_eq_true, if_false, e1, Outcome.bind]
      by_cases hc : c x y = s.lx x + s.ly y ∧ s.T y = false
      · rw [if_pos hc]
        rcases hyx : s.yx y with _ | x'
        · exact ⟨_, rfl, L, hx, h.found hx hyx hc.1⟩
        · obtain ⟨-, s', h1, h2, -⟩ := h.enter hF hyx hc.2 hx hc.1 hfo
          exact ⟨s', h1, _, by simp [hx], h2⟩
      · rw [if_neg hc]
        exact ⟨s, rfl, L, hx, h⟩
    · exact ⟨s, by simp, L, hx, h⟩

/-- the queue is emptied, or a path is found -/
theorem drain_ok (hF : Fits A c R) {r y₀ : Fin n} {xy yx : Fin n → Option (Fin n)}
    {T₀ : Fin n → Bool} {M : ℕ} {L : List (Fin n)} {s : State n}
    (h : Search c r y₀ xy yx T₀ M L s) :
    ∃ s', drain A c M s = .ok s' ∧ ∃ L', Search c r y₀ xy yx T₀ M L' s' := by
  induction M generalizing s L with
  | zero =>
    have hc := h.count
    have hL : L.length ≤ n := by simpa using h.busy.tree.nodup.length_le_card
    have hq : s.q = [] := List.length_eq_zero_iff.1 (by omega)
    refine ⟨s, ?_, L, h⟩
    unfold drain
    simp [hq]
  | succ M ih =>
    unfold drain
    by_cases hfo : s.found.isSome
    · rw [if_pos hfo]; exact ⟨s, rfl, L, h⟩
    · rw [if_neg hfo]
      rcases hq : s.q with _ | ⟨x, q⟩
      · exact ⟨s, rfl, L, h⟩
      · obtain ⟨hx, hp⟩ := h.pop hq
        obtain ⟨s₁, h1, L₁, h2⟩ := scan_ok hF hp hx
        obtain ⟨s₂, h3, L₂, h4⟩ := ih h2
        refine ⟨s₂, by simp only [h1, Outcome.bind, h3], L₂, h4.busy, h4.slack, h4.xy_eq, h4.yx_eq,
          h4.free, h4.mono, by have := h4.count; omega⟩

/-! ## Improving the labels -/

private theorem foldl_min_le (T : Fin n → Bool) (sl : Fin n → ℤ) (l : List (Fin n)) (a : ℤ) :
    (l.foldl (fun d i => if T i then d else min d (sl i)) a ≤ a) ∧
    (∀ i ∈ l, T i = false → l.foldl (fun d i => if T i then d else min d (sl i)) a ≤ sl i) ∧
    (l.foldl (fun d i => if T i then d else min d (sl i)) a = a ∨
      ∃ i ∈ l, T i = false ∧ l.foldl (fun d i => if T i then d else min d (sl i)) a = sl i) := by
  induction l generalizing a with
  | nil => simp
  | cons j l ih =>
    obtain ⟨h1, h2, h3⟩ := ih (if T j then a else min a (sl j))
    rw [List.foldl_cons]
    generalize hX : l.foldl (fun d i => if T i then d else min d (sl i))
      (if T j then a else min a (sl j)) = X at h1 h2 h3
    cases hj : T j
    · simp only [hj, Bool.false_eq_true, if_false] at h1 h3
      refine ⟨h1.trans (min_le_left _ _), ?_, ?_⟩
      · intro i hi hTi
        rcases List.mem_cons.1 hi with rfl | hi
        · exact h1.trans (min_le_right _ _)
        · exact h2 i hi hTi
      · rcases h3 with h3 | ⟨i, hi, hTi, h3⟩
        · rcases min_choice a (sl j) with hm | hm
          · exact .inl (h3.trans hm)
          · exact .inr ⟨j, by simp, hj, h3.trans hm⟩
        · exact .inr ⟨i, by simp [hi], hTi, h3⟩
    · simp only [hj, if_true] at h1 h3
      refine ⟨h1, ?_, ?_⟩
      · intro i hi hTi
        rcases List.mem_cons.1 hi with rfl | hi
        · rw [hj] at hTi; cases hTi
        · exact h2 i hi hTi
      · rcases h3 with h3 | ⟨i, hi, hTi, h3⟩
        · exact .inl h3
        · exact .inr ⟨i, by simp [hi], hTi, h3⟩

/-- the labels after the improvement -/
def relabelled (s : State n) (d : ℤ) : State n :=
  { s with lx := fun i => if s.S i then s.lx i - d else s.lx i,
           ly := fun i => if s.T i then s.ly i + d else s.ly i,
           slack := fun i => if s.T i then s.slack i else s.slack i - d }

/-- the loop over the labels does what `relabelled` says if nothing overflows -/
theorem relabel_fold {s : State n} {d : ℤ}
    (h1 : ∀ i, s.S i = true → A.chk (s.lx i - d) = .ok (s.lx i - d))
    (h2 : ∀ i, s.T i = true → A.chk (s.ly i + d) = .ok (s.ly i + d))
    (h3 : ∀ i, s.T i = false → A.chk (s.slack i - d) = .ok (s.slack i - d)) :
    foldOutcome (relabelStep A d) (List.finRange n) s = .ok (relabelled s d) := by
  have key := foldOutcome_prefix (f := relabelStep A d) (l := List.finRange n) (s := s)
    (I := fun p s' => s' = { s with
      lx := fun i => if i ∈ p then (relabelled s d).lx i else s.lx i,
      ly := fun i => if i ∈ p then (relabelled s d).ly i else s.ly i,
      slack := fun i => if i ∈ p then (relabelled s d).slack i else s.slack i }) ?_ (by simp)
  · obtain ⟨s', h, rfl⟩ := key
    rw [h]
    simp [relabelled]
  · rintro p i r s' hl rfl
    have hip : i ∉ p := by
      have := List.nodup_finRange n
      rw [hl, List.nodup_append] at this
      intro hm
      exact this.2.2 i hm i (by simp) rfl
    refine ⟨_, ?_, rfl⟩
    unfold relabelStep
    have upd : ∀ (f g : Fin n → ℤ), Function.update (fun j => if j ∈ p then f j else g j) i (f i) =
        fun j => if j ∈ p ++ [i] then f j else g j := by
      intro f g
      funext j
      by_cases hj : j = i
      · subst hj; simp
      · simp [hj]
    have same : ∀ (f g : Fin n → ℤ), f i = g i → (fun j => if j ∈ p ++ [i] then f j else g j) =
        fun j => if j ∈ p then f j else g j := by
      intro f g hfg
      funext j
      by_cases hj : j = i
      · subst hj; simp [hip, hfg]
      · simp [hj]
    cases hS : s.S i <;> cases hT : s.T i
    · simp only [hT, Bool.false_eq_true, if_false, Outcome.bind, hip, h3 i hT]
      rw [same _ _ (by simp [relabelled, hS]), same (relabelled s d).ly _ (by simp [relabelled, hT]),
        ← upd]
      simp [relabelled, hT]
    · simp only [hT, Bool.false_eq_true, if_false, if_true, Outcome.bind, hip, h2 i hT]
      rw [same _ _ (by simp [relabelled, hS]),
        same (relabelled s d).slack _ (by simp [relabelled, hT]), ← upd]
      simp [relabelled, hT]
    · simp only [hT, Bool.false_eq_true, if_false, if_true, Outcome.bind, hip, h3 i hT, h1 i hS]
      rw [same (relabelled s d).ly _ (by simp [relabelled, hT]), ← upd, ← upd]
      simp [relabelled, hT, hS]
    · simp only [hT, if_false, if_true, Outcome.bind, hip, h2 i hT, h1 i hS]
      rw [same (relabelled s d).slack _ (by simp [relabelled, hT]), ← upd, ← upd]
      simp [relabelled, hT, hS]

/-- the labels are improved: the search goes on, with a tight edge to a new column -/
theorem relabel_ok (hF : Fits A c R) {r y₀ : Fin n} {xy yx : Fin n → Option (Fin n)}
    {T₀ : Fin n → Bool} {M : ℕ} {L : List (Fin n)} {s : State n}
    (h : Search c r y₀ xy yx T₀ M L s) (hfo : s.found = none) :
    ∃ s', foldOutcome (relabelStep A (delta A s)) (List.finRange n) s = .ok s' ∧
      s'.found = none ∧
      Search c r y₀ xy yx s.T n L { s' with q := [] } ∧
      ∃ y, s.T y = false ∧ s'.slack y = 0 := by
  have hy₀ : s.yx y₀ = none := by rw [h.yx_eq, h.free]
  have hg := h.busy.good
  have hT₀ : s.T y₀ = false := by
    by_contra hT
    obtain ⟨x, hx, -⟩ := h.busy.col y₀ (by simpa using hT)
    rw [hy₀] at hx; cases hx
  obtain ⟨d1, d2, d3⟩ := foldl_min_le s.T s.slack (List.finRange n) A.top
  change delta A s ≤ A.top at d1
  change ∀ i ∈ List.finRange n, s.T i = false → delta A s ≤ s.slack i at d2
  change delta A s = A.top ∨ ∃ i ∈ List.finRange n, s.T i = false ∧ delta A s = s.slack i at d3
  generalize hd : delta A s = d at d1 d2 d3 ⊢
  have hnn : ∀ y, 0 ≤ s.slack y := fun y => by
    rw [(h.slack y).2.2]; linarith [hg.feas (s.slackx y) y]
  have hlt : s.slack y₀ < A.top := by
    rw [(h.slack y₀).2.2]; exact (hg.sum_fits hF hy₀ _ _).2.2.2
  obtain ⟨y₁, hTy₁, hdy₁⟩ : ∃ y, s.T y = false ∧ d = s.slack y := by
    rcases d3 with d3 | ⟨y, -, h1, h2⟩
    · have := d2 y₀ (List.mem_finRange _) hT₀
      omega
    · exact ⟨y, h1, h2⟩
  have hd0 : 0 ≤ d := hdy₁ ▸ hnn y₁
  have hdx : ∀ x y, s.S x = true → s.T y = false → d ≤ s.lx x + s.ly y - c x y := fun x y hx hy =>
    (d2 y (List.mem_finRange _) hy).trans ((h.slack y).1 x ((h.busy.mem x).1 hx))
  have hg' : Good c (relabelled s d) := by
    refine ⟨?_, ?_, ?_, ?_, hg.cons, ?_⟩
    · intro x y
      have := hg.feas x y
      simp only [relabelled]
      cases hS : s.S x <;> cases hT : s.T y <;> simp <;> try omega
      have := hdx x y hS hT
      omega
    · intro x
      obtain ⟨y, hy⟩ := hg.upper x
      refine ⟨y, ?_⟩
      simp only [relabelled]
      split <;> omega
    · intro y
      have := hg.nonneg y
      simp only [relabelled]
      split <;> omega
    · intro y hy
      have hT : s.T y = false := by
        by_contra hT
        obtain ⟨x, hx, -⟩ := h.busy.col y (by simpa using hT)
        rw [show s.yx y = none from hy] at hx; cases hx
      simp only [relabelled, hT]
      simpa using hg.free y hy
    · intro x y hxy
      have ht := hg.tight x y hxy
      have hxy' : s.xy x = some y := hxy
      have hiff : s.S x = s.T y := by
        rw [Bool.eq_iff_iff]
        constructor
        · intro hS
          rcases h.busy.tree.matched ((h.busy.mem x).1 hS) with rfl | ⟨y', p, h1, -, h2⟩
          · rw [h.busy.tree.root_none.1] at hxy'; cases hxy'
          · rw [hxy'] at h1; cases h1; exact h2
        · intro hT
          obtain ⟨x', h1, h2⟩ := h.busy.col y hT
          rw [(hg.cons x y).1 hxy'] at h1
          cases h1
          exact (h.busy.mem x).2 h2
      simp only [relabelled, hiff]
      cases s.T y <;> simp <;> omega
  have hsl : ∀ y, SlackOf c L (relabelled s d) y := by
    intro y
    obtain ⟨k1, k2, k3⟩ := h.slack y
    have e1 : ∀ x ∈ L, s.S x = true := fun x hx => (h.busy.mem x).2 hx
    refine ⟨fun x hx => ?_, k2, ?_⟩
    · have := k1 x hx
      simp only [relabelled, e1 x hx]
      cases s.T y <;> simp <;> omega
    · simp only [relabelled, e1 _ k2]
      cases s.T y <;> simp <;> omega
  have hfold : foldOutcome (relabelStep A d) (List.finRange n) s = .ok (relabelled s d) := by
    obtain ⟨hR, b1, b2⟩ := hg'.bounds hF (y₀ := y₀) hy₀
    refine relabel_fold ?_ ?_ ?_
    · intro i hi
      obtain ⟨y, hy⟩ := hg'.upper i
      have := b1 i
      simp only [relabelled, hi, if_true] at hy this
      exact hF.row i y₀ y _ this (by omega)
    · intro i hi
      have h1 := b2 i
      have h2 := hg'.nonneg i
      simp only [relabelled, hi, if_true] at h1 h2
      exact hF.small _ h2 (by omega)
    · intro i hi
      have h1 : (relabelled s d).slack i = s.slack i - d := by simp [relabelled, hi]
      rw [← h1, (hsl i).2.2]
      exact (hg'.sum_fits hF (y₀ := y₀) hy₀ _ i).2.1
  refine ⟨_, hfold, hfo, ⟨⟨⟨hg'.feas, hg'.upper, hg'.nonneg, hg'.free, hg'.cons, hg'.tight⟩, ?_,
    h.busy.mem, h.busy.col, by simp, ?_⟩, hsl, h.xy_eq, h.yx_eq, h.free, fun _ h => h, ?_⟩, y₁, hTy₁, ?_⟩
  · refine h.busy.tree.congr (fun _ _ => rfl) ?_
    rintro p hp y ⟨h1, h2⟩
    refine ⟨?_, h2⟩
    simp only [relabelled, (h.busy.mem p).2 hp, h2, if_true]
    omega
  · intro a b hab
    simp [relabelled, hfo] at hab
  · simp
  · simp [relabelled, hTy₁, hdy₁]

theorem Search.reset {r y₀ : Fin n} {xy yx : Fin n → Option (Fin n)} {T₀ : Fin n → Bool} {M M' : ℕ}
    {L : List (Fin n)} {s : State n} (h : Search c r y₀ xy yx T₀ M L s) (hM : M ≤ M') :
    Search c r y₀ xy yx s.T M' L s :=
  ⟨h.busy, h.slack, h.xy_eq, h.yx_eq, h.free, fun _ h => h, by have := h.count; omega⟩

/-- a column with slack 0 enters the tree or ends the search -/
theorem pick_ok (hF : Fits A c R) {r y₀ : Fin n} {xy yx : Fin n → Option (Fin n)}
    {T₀ : Fin n → Bool} {M : ℕ} {L : List (Fin n)} {s : State n}
    (h : Search c r y₀ xy yx T₀ M L s) {y₁ : Fin n} (hy₁ : s.slack y₁ = 0) :
    ∃ s', foldOutcome (pickStep A c) (List.finRange n) s = .ok s' ∧
      (∃ L', Search c r y₀ xy yx T₀ M L' s') ∧ (s'.found.isSome ∨ s'.T y₁ = true) := by
  obtain ⟨-, hx₁, ht₁⟩ := h.slack y₁
  rw [hy₁] at ht₁
  generalize s.slackx y₁ = x₁ at hx₁ ht₁
  have key := foldOutcome_prefix (f := pickStep A c) (l := List.finRange n) (s := s)
    (I := fun d s' => (∃ L, x₁ ∈ L ∧ Search c r y₀ xy yx T₀ M L s') ∧ s'.lx = s.lx ∧ s'.ly = s.ly ∧
      (y₁ ∈ d → s'.found.isSome ∨ s'.T y₁ = true)) ?_ ⟨⟨L, hx₁, h⟩, rfl, rfl, by simp⟩
  · obtain ⟨s', h1, ⟨L', -, h2⟩, -, -, h3⟩ := key
    exact ⟨s', h1, ⟨L', h2⟩, h3 (List.mem_finRange _)⟩
  · rintro d y _ s' - ⟨⟨L, hx, h⟩, e1, e2, h3⟩
    unfold pickStep
    rcases hfo : s'.found with _ | f
    · simp only [Option.isSome_none, Bool.false_eq_true, if_false]
      have hz : s'.slack y₁ = 0 := by
        refine le_antisymm ?_ ?_
        · have := (h.slack y₁).1 x₁ hx
          rw [e1, e2, ← ht₁] at this
          exact this
        · rw [(h.slack y₁).2.2]
          linarith [h.busy.good.feas (s'.slackx y₁) y₁]
      by_cases hc : s'.T y = false ∧ s'.slack y = 0
      · rw [if_pos hc]
        obtain ⟨-, k2, k3⟩ := h.slack y
        have ht : c (s'.slackx y) y = s'.lx (s'.slackx y) + s'.ly y := by
          rw [hc.2] at k3; linarith
        rcases hyx : s'.yx y with _ | x'
        · exact ⟨_, rfl, ⟨L, hx, h.found k2 hyx ht⟩, e1, e2, by simp⟩
        · obtain ⟨hS, s'', h4, h5, h6, h7, h8, h9⟩ := h.enter hF hyx hc.1 k2 ht hfo
          simp only [hS, Bool.false_eq_true, if_false]
          refine ⟨s'', h4, ⟨_, by simp [hx], h5⟩, h8.trans e1, h9.trans e2, fun hm => .inr ?_⟩
          rcases List.mem_append.1 hm with hm | hm
          · exact h7 _ ((h3 hm).resolve_left (by simp [hfo]))
          · simp at hm; rw [hm]; exact h6
      · rw [if_neg hc]
        refine ⟨s', rfl, ⟨L, hx, h⟩, e1, e2, fun hm => .inr ?_⟩
        rcases List.mem_append.1 hm with hm | hm
        · exact (h3 hm).resolve_left (by simp [hfo])
        · simp at hm
          subst hm
          by_contra hT
          exact hc ⟨by simpa using hT, hz⟩
    · refine ⟨s', by simp, ⟨L, hx, h⟩, e1, e2, fun _ => .inl (by simp [hfo])⟩

/-- the search ends with a path -/
theorem search_ok (hF : Fits A c R) {r y₀ : Fin n} {xy yx : Fin n → Option (Fin n)} {fuel : ℕ}
    (hfuel : n ≤ fuel) : ∀ (k : ℕ) {T₀ : Fin n → Bool} {L : List (Fin n)} {s : State n},
    Search c r y₀ xy yx T₀ fuel L s →
    (Finset.univ.filter fun y => s.T y = false).card ≤ k →
    ∃ s', search A c fuel k s = .ok s' ∧
      (∃ T₀ L', Search c r y₀ xy yx T₀ fuel L' s') ∧ s'.found.isSome := by
  have hfreeT : ∀ {T₀ : Fin n → Bool} {M : ℕ} {L : List (Fin n)} {s : State n},
      Search c r y₀ xy yx T₀ M L s → s.T y₀ = false := by
    intro T₀ M L s h
    by_contra hT
    obtain ⟨x, hx, -⟩ := h.busy.col y₀ (by simpa using hT)
    rw [h.yx_eq, h.free] at hx; cases hx
  intro k
  induction k with
  | zero =>
    intro T₀ L s h hk
    have := Finset.card_pos.2 ⟨y₀, (Finset.mem_filter (p := fun y => s.T y = false)).2
      ⟨Finset.mem_univ _, hfreeT h⟩⟩
    omega
  | succ k ih =>
    intro T₀ L s h hk
    unfold search
    obtain ⟨s₁, h1, L₁, h2⟩ := drain_ok hF (h.reset le_rfl)
    simp only [h1, Outcome.bind]
    by_cases hfo : s₁.found.isSome
    · rw [if_pos hfo]; exact ⟨s₁, rfl, ⟨_, L₁, h2⟩, hfo⟩
    · rw [if_neg hfo]
      obtain ⟨s₂, h3, h4, h5, y₁, h6, h7⟩ := relabel_ok hF h2 (by simpa using hfo)
      simp only [h3]
      obtain ⟨s₃, h8, ⟨L₃, h9⟩, h10⟩ := pick_ok hF h5 (y₁ := y₁) h7
      simp only [h8]
      by_cases hfo : s₃.found.isSome
      · rw [if_pos hfo]; exact ⟨s₃, rfl, ⟨_, L₃, h9.reset hfuel⟩, hfo⟩
      · rw [if_neg hfo]
        refine ih (h9.reset hfuel) ?_
        have hT : s₃.T y₁ = true := h10.resolve_left hfo
        refine Nat.le_of_lt_succ (lt_of_lt_of_le (Finset.card_lt_card ?_) hk)
        rw [Finset.ssubset_iff_of_subset]
        · refine ⟨y₁, ?_, by simp [hT]⟩
          simp only [Finset.mem_filter, Finset.mem_univ, true_and]
          by_contra hs
          have := h2.mono y₁ (by simpa using hs)
          rw [h6] at this; cases this
        · intro y hy
          simp only [Finset.mem_filter, Finset.mem_univ, true_and] at hy ⊢
          by_contra hs
          have e1 := h2.mono y (by simpa using hs)
          have e2 := h9.mono y e1
          rw [hy] at e2; cases e2

/-- flipping the path gives a matching with one more row -/
theorem flip_ok {lx ly : Fin n → ℤ} {aug xy₀ : Fin n → Option (Fin n)}
    {P : Fin n → Fin n → Prop} {r : Fin n} {L : List (Fin n)} (hL : Tree aug xy₀ P r L)
    (hP : ∀ p y, P p y → c p y = lx p + ly y) :
    ∀ (k : ℕ), L.length ≤ k → ∀ (s : State n) (x y : Fin n), x ∈ L → s.aug = aug → s.lx = lx →
    s.ly = ly → (∀ z ∈ L, s.xy z = xy₀ z) →
    (∀ z w, w ≠ y → (s.xy z = some w ↔ s.yx w = some z)) → (∀ z, s.xy z ≠ some y) →
    (∀ z w, s.xy z = some w → c z w = lx z + ly w) → c x y = lx x + ly y →
    ∃ s', flip k (some x) (some y) s = .ok s' ∧ s'.lx = lx ∧ s'.ly = ly ∧
      (∀ z w, s'.xy z = some w ↔ s'.yx w = some z) ∧
      (∀ z w, s'.xy z = some w → c z w = lx z + ly w) ∧
      (∀ z, s'.xy z = none ↔ s.xy z = none ∧ z ≠ r) ∧
      (∀ w, s'.yx w = none → s.yx w = none) := by
  induction hL with
  | root ha hr =>
    intro k hk s x y hx e1 e2 e3 hxy hc hn ht hxt
    obtain rfl : x = r := by simpa using hx
    obtain ⟨k, rfl⟩ : ∃ j, k = j + 1 := ⟨k - 1, by simp at hk; omega⟩
    have hnx : s.xy x = none := by rw [hxy x (by simp), hr]
    refine ⟨{ s with yx := Function.update s.yx y (some x), xy := Function.update s.xy x (some y) },
      ?_, e2, e3, ?_, ?_, ?_, ?_⟩
    · have h1 : s.aug x = none := by rw [e1, ha]
      rw [flip, h1]
      simp [flip]
    · intro z w
      by_cases hz : z = x <;> by_cases hw : w = y
      · subst hz hw; simp
      · subst hz
        simp only [Function.update_self, Function.update_of_ne hw]
        rw [← hc z w hw, hnx]
        simp [Ne.symm hw]
      · subst hw
        simp only [Function.update_self, Function.update_of_ne hz]
        simp [hn z, Ne.symm hz]
      · simp only [Function.update_of_ne hz, Function.update_of_ne hw]
        exact hc z w hw
    · intro z w hzw
      by_cases hz : z = x
      · subst hz
        simp at hzw
        subst hzw; exact hxt
      · simp only [Function.update_of_ne hz] at hzw
        exact ht z w hzw
    · intro z
      by_cases hz : z = x
      · subst hz; simp
      · simp [hz]
    · intro w hw
      by_cases hwy : w = y
      · subst hwy; simp at hw
      · simpa [Function.update_of_ne hwy] using hw
  | @cons L a p b hL ha hp h1 h2 h3 ih =>
    intro k hk s x y hx e1 e2 e3 hxy hc hn ht hxt
    by_cases hxa : x = a
    · subst hxa
      obtain ⟨k, rfl⟩ : ∃ j, k = j + 1 := ⟨k - 1, by simp at hk; omega⟩
      have hxb : s.xy x = some b := by rw [hxy x (by simp), h2]
      have hby : b ≠ y := by rintro rfl; exact hn x hxb
      have hinj : ∀ z, s.xy z = some b → z = x := by
        intro z hz
        have k1 := (hc z b hby).1 hz
        have k2 := (hc x b hby).1 hxb
        rw [k1] at k2
        exact Option.some.inj k2
      have a1 : ∀ z ∈ L, Function.update s.xy x (some y) z = xy₀ z := by
        intro z hz
        have : z ≠ x := by rintro rfl; exact ha hz
        simp only [Function.update_of_ne this]
        exact hxy z (by simp [hz])
      have a2 : ∀ z w, w ≠ b → (Function.update s.xy x (some y) z = some w ↔
          Function.update s.yx y (some x) w = some z) := by
        intro z w hwb
        by_cases hz : z = x <;> by_cases hw : w = y
        · subst hz hw; simp
        · subst hz
          simp only [Function.update_self, Function.update_of_ne hw]
          rw [← hc z w hw, hxb]
          simp [Ne.symm hw, Ne.symm hwb]
        · subst hw
          simp only [Function.update_self, Function.update_of_ne hz]
          simp [hn z, Ne.symm hz]
        · simp only [Function.update_of_ne hz, Function.update_of_ne hw]
          exact hc z w hw
      have a3 : ∀ z, Function.update s.xy x (some y) z ≠ some b := by
        intro z
        by_cases hz : z = x
        · subst hz; simp [Ne.symm hby]
        · simp only [Function.update_of_ne hz]
          intro h; exact hz (hinj z h)
      have a4 : ∀ z w, Function.update s.xy x (some y) z = some w → c z w = lx z + ly w := by
        intro z w hzw
        by_cases hz : z = x
        · subst hz
          simp at hzw
          subst hzw; exact hxt
        · simp only [Function.update_of_ne hz] at hzw
          exact ht z w hzw
      obtain ⟨s', k1, k2, k3, k4, k5, k6, k7⟩ := ih k (by simpa using hk)
        { s with yx := Function.update s.yx y (some x), xy := Function.update s.xy x (some y) }
        p b hp e1 e2 e3 a1 a2 a3 a4 (hP _ _ h3)
      refine ⟨s', ?_, k2, k3, k4, k5, ?_, ?_⟩
      · have h1' : s.aug x = some p := by rw [e1, h1]
        rw [flip, h1', hxb]; exact k1
      · intro z
        rw [k6 z]
        by_cases hz : z = x
        · subst hz; simp [hxb]
        · simp [Function.update_of_ne hz]
      · intro w hw
        have := k7 w hw
        by_cases hwy : w = y
        · subst hwy; simp at this
        · simpa [Function.update_of_ne hwy] using this
    · have hxL : x ∈ L := by simpa [hxa] using hx
      exact ih k (by simp at hk; omega) s x y hxL e1 e2 e3 (fun z hz => hxy z (by simp [hz])) hc hn
        ht hxt

/-! ## The rounds -/

/-- a round matches one more row -/
theorem round_ok (hF : Fits A c R) {fuel : ℕ} (hfuel : n ≤ fuel) {s : State n} (hg : Good c s)
    (hex : ∃ x, s.xy x = none) :
    ∃ s', round A c fuel s = .ok s' ∧ Good c s' ∧
      ∃ r, s.xy r = none ∧ ∀ z, s'.xy z = none ↔ s.xy z = none ∧ z ≠ r := by
  obtain ⟨r, hr⟩ : ∃ r, (List.finRange n).find? (fun x => (s.xy x).isNone) = some r := by
    rw [← Option.isSome_iff_exists, List.find?_isSome]
    obtain ⟨x, hx⟩ := hex
    exact ⟨x, List.mem_finRange _, by simp [hx]⟩
  have hrn : s.xy r = none := by simpa using List.find?_some hr
  obtain ⟨y₀, hy₀⟩ := hg.exists_free hrn
  have hst : ∃ s₁, start A c s = .ok s₁ ∧ Search c r y₀ s.xy s.yx (fun _ => false) n [r] s₁ := by
    unfold start
    simp only [hr]
    obtain ⟨sl, sx, h1, h2⟩ := computeSlack_ok (A := A) hF
      (s := { s with
        S := Function.update (fun _ => false) r true, T := fun _ => false, slack := fun _ => A.top,
        aug := fun _ => none, q := [r], found := none })
      ⟨hg.feas, hg.upper, hg.nonneg, hg.free, hg.cons, hg.tight⟩ (y₀ := y₀) hy₀ r (K := [])
      (.inl ⟨rfl, fun _ => rfl⟩)
    refine ⟨_, h1, ⟨⟨⟨hg.feas, hg.upper, hg.nonneg, hg.free, hg.cons, hg.tight⟩, .root rfl hrn, ?_,
      by simp, by simp, by simp⟩, h2, rfl, rfl, hy₀, by simp, by simp; omega⟩⟩
    intro x
    by_cases hx : x = r
    · subst hx; simp
    · simp [hx]
  obtain ⟨s₁, h1, h2⟩ := hst
  obtain ⟨s₂, h3, ⟨T₀, L, h4⟩, h5⟩ := search_ok hF hfuel fuel (h2.reset hfuel)
    ((Finset.card_le_univ _).trans (by simpa using hfuel))
  obtain ⟨⟨x, y⟩, hxy⟩ := Option.isSome_iff_exists.1 h5
  obtain ⟨hx, hy, ht⟩ := h4.busy.start x y hxy
  have hg₂ := h4.busy.good
  obtain ⟨s₃, k1, k2, k3, k4, k5, k6, k7⟩ := flip_ok (c := c) h4.busy.tree (fun _ _ h => h.1) fuel
    (by
      have := h4.busy.tree.nodup.length_le_card
      simp at this; omega) s₂ x y hx rfl rfl rfl (fun _ _ => rfl)
    (fun z w _ => hg₂.cons z w)
    (fun z hz => by rw [hg₂.cons, hy] at hz; cases hz) hg₂.tight ht
  refine ⟨s₃, ?_, ⟨?_, ?_, ?_, ?_, k4, ?_⟩, r, hrn, ?_⟩
  · unfold round
    simp only [h1, Outcome.bind, h3, hxy, k1]
  · rw [k2, k3]; exact hg₂.feas
  · rw [k2]; exact hg₂.upper
  · rw [k3]; exact hg₂.nonneg
  · intro w hw; rw [k3]; exact hg₂.free w (k7 w hw)
  · rw [k2, k3]; exact k5
  · intro z; rw [k6, h4.xy_eq]

/-- all rounds -/
theorem rounds_ok (hF : Fits A c R) {fuel : ℕ} (hfuel : n ≤ fuel) : ∀ (k : ℕ) {s : State n},
    Good c s → (Finset.univ.filter fun x => s.xy x = none).card = k →
    ∃ s', rounds A c fuel k s = .ok s' ∧ Good c s' ∧ ∀ x, s'.xy x ≠ none := by
  intro k
  induction k with
  | zero =>
    intro s hg hk
    refine ⟨s, rfl, hg, fun x hx => ?_⟩
    rw [Finset.card_eq_zero, Finset.filter_eq_empty_iff] at hk
    exact hk (Finset.mem_univ x) hx
  | succ k ih =>
    intro s hg hk
    obtain ⟨x, hx⟩ := Finset.card_pos.1 (by rw [hk]; omega)
    obtain ⟨s₁, h1, h2, r, h3, h4⟩ := round_ok (A := A) hF hfuel hg ⟨x, by simpa using hx⟩
    obtain ⟨s₂, h5, h6⟩ := ih h2 (by
      have : (Finset.univ.filter fun x => s₁.xy x = none) =
          (Finset.univ.filter fun x => s.xy x = none).erase r := by
        ext z; simp [h4, and_comm]
      rw [this, Finset.card_erase_of_mem (by simp [h3]), hk]
      rfl)
    exact ⟨s₂, by simp [rounds, h1, Outcome.bind, h5], h6⟩

private theorem foldl_max_le (f : Fin n → ℤ) (l : List (Fin n)) (a : ℤ) :
    a ≤ l.foldl (fun m y => max m (f y)) a ∧
    (∀ y ∈ l, f y ≤ l.foldl (fun m y => max m (f y)) a) ∧
    (l.foldl (fun m y => max m (f y)) a = a ∨
      ∃ y, l.foldl (fun m y => max m (f y)) a = f y) := by
  induction l generalizing a with
  | nil => simp
  | cons j l ih =>
    obtain ⟨h1, h2, h3⟩ := ih (max a (f j))
    rw [List.foldl_cons]
    refine ⟨(le_max_left _ _).trans h1, ?_, ?_⟩
    · intro y hy
      rcases List.mem_cons.1 hy with rfl | hy
      · exact (le_max_right _ _).trans h1
      · exact h2 y hy
    · rcases h3 with h3 | h3
      · rcases max_choice a (f j) with hm | hm
        · exact .inl (h3.trans hm)
        · exact .inr ⟨j, h3.trans hm⟩
      · exact .inr h3

theorem rowMax_spec (c : Fin n → Fin n → ℤ) (x : Fin n) :
    (∀ y, c x y ≤ rowMax c x) ∧ ∃ y, rowMax c x = c x y := by
  obtain ⟨-, h2, h3⟩ := foldl_max_le (c x) (List.finRange n) (c x ⟨0, x.pos⟩)
  refine ⟨fun y => h2 y (List.mem_finRange _), ?_⟩
  rcases h3 with h3 | h3
  · exact ⟨_, h3⟩
  · exact h3

theorem init_good (c : Fin n → Fin n → ℤ) : Good c (init c) := by
  refine ⟨?_, ?_, by simp [init], by simp [init], by simp [init], by simp [init]⟩
  · intro x y
    simpa [init] using (rowMax_spec c x).1 y
  · intro x
    obtain ⟨y, hy⟩ := (rowMax_spec c x).2
    exact ⟨y, hy.le⟩

end Km

/-- the procedure ends, without overflow, with an optimal assignment -/
theorem kmAssignment_ok {n : ℕ} {A : IntArith} {c : Fin n → Fin n → ℤ} {R : ℤ}
    (hF : Km.Fits A c R) {fuel : ℕ} (hfuel : n ≤ fuel) :
    ∃ σ : Equiv.Perm (Fin n), kmAssignment A fuel n c = .ok (List.ofFn fun i => ((σ i).1 : ℤ)) ∧
      ∀ τ : Equiv.Perm (Fin n), ∑ i, c i (τ i) ≤ ∑ i, c i (σ i) := by
  obtain ⟨s, h1, hg, h2⟩ := Km.rounds_ok hF hfuel n (Km.init_good c) (by simp [Km.init])
  have ht : ∀ x, ∃ y, s.xy x = some y := fun x => Option.ne_none_iff_exists'.1 (h2 x)
  choose f hf using ht
  have hinj : Function.Injective f := by
    intro x x' hxx
    have k1 := (hg.cons _ _).1 (hf x)
    have k2 := (hg.cons _ _).1 (hf x')
    rw [hxx, k2] at k1
    exact (Option.some.inj k1).symm
  refine ⟨Equiv.ofBijective f (Finite.injective_iff_bijective.1 hinj), ?_, fun τ => ?_⟩
  · simp [kmAssignment, h1, Outcome.bind, hf]
  · calc ∑ i, c i (τ i) ≤ ∑ i, (s.lx i + s.ly (τ i)) :=
        Finset.sum_le_sum fun i _ => hg.feas i (τ i)
      _ = ∑ i, s.lx i + ∑ i, s.ly i := by
        rw [Finset.sum_add_distrib, Equiv.sum_comp τ]
      _ = ∑ i, (s.lx i + s.ly (Equiv.ofBijective f (Finite.injective_iff_bijective.1 hinj) i)) := by
        rw [Finset.sum_add_distrib, Equiv.sum_comp (Equiv.ofBijective f _)]
      _ = _ := Finset.sum_congr rfl fun i _ => (hg.tight i (f i) (hf i)).symm

end Mot

/-! ## The bound on the number of passes does not matter once it is large enough -/

namespace Mot

private theorem Outcome.bind_ok {α β : Type} {x : Outcome α} {f : α → Outcome β} {b : β}
    (h : x.bind f = .ok b) : ∃ a, x = .ok a ∧ f a = .ok b := by
  cases x <;> simp [Outcome.bind] at h
  exact ⟨_, rfl, h⟩

namespace Km

variable {n : ℕ} {A : IntArith} {c : Fin n → Fin n → ℤ}

theorem drain_mono : ∀ {k k' : ℕ} {s s' : State n}, k ≤ k' → drain A c k s = .ok s' →
    drain A c k' s = .ok s' := by
  intro k
  induction k with
  | zero =>
    intro k' s s' _ h
    unfold drain at h ⊢
    by_cases hfo : s.found.isSome
    · rw [if_pos hfo] at h ⊢; exact h
    · rw [if_neg hfo] at h ⊢
      rcases hq : s.q with _ | ⟨x, q⟩
      · rw [hq] at h; exact h
      · rw [hq] at h; simp at h
  | succ k ih =>
    intro k' s s' hk h
    obtain ⟨k', rfl⟩ : ∃ j, k' = j + 1 := ⟨k' - 1, by omega⟩
    unfold drain at h ⊢
    by_cases hfo : s.found.isSome
    · rw [if_pos hfo] at h ⊢; exact h
    · rw [if_neg hfo] at h ⊢
      rcases hq : s.q with _ | ⟨x, q⟩
      · rw [hq] at h; exact h
      · rw [hq] at h
        obtain ⟨s₁, h1, h2⟩ := Outcome.bind_ok h
        simp only [h1, Outcome.bind]
        exact ih (by omega) h2

theorem search_mono {fuel fuel' : ℕ} (hf : fuel ≤ fuel') : ∀ {k k' : ℕ} {s s' : State n}, k ≤ k' →
    search A c fuel k s = .ok s' → search A c fuel' k' s = .ok s' := by
  intro k
  induction k with
  | zero => intro k' s s' _ h; simp [search] at h
  | succ k ih =>
    intro k' s s' hk h
    obtain ⟨k', rfl⟩ : ∃ j, k' = j + 1 := ⟨k' - 1, by omega⟩
    unfold search at h ⊢
    obtain ⟨s₁, h1, h⟩ := Outcome.bind_ok h
    simp only [drain_mono hf h1, Outcome.bind]
    by_cases hfo : s₁.found.isSome
    · rw [if_pos hfo] at h ⊢; exact h
    · rw [if_neg hfo] at h ⊢
      obtain ⟨s₂, h2, h⟩ := Outcome.bind_ok h
      obtain ⟨s₃, h3, h⟩ := Outcome.bind_ok h
      simp only [h2, h3]
      by_cases hfo : s₃.found.isSome
      · rw [if_pos hfo] at h ⊢; exact h
      · rw [if_neg hfo] at h ⊢
        exact ih (by omega) h

theorem flip_mono : ∀ {k k' : ℕ} {cx cy : Option (Fin n)} {s s' : State n}, k ≤ k' →
    flip k cx cy s = .ok s' → flip k' cx cy s = .ok s' := by
  intro k
  induction k with
  | zero =>
    intro k' cx cy s s' _ h
    rcases cx with _ | x <;> rcases cy with _ | y <;> simp [flip] at h ⊢ <;> exact h
  | succ k ih =>
    intro k' cx cy s s' hk h
    obtain ⟨k', rfl⟩ : ∃ j, k' = j + 1 := ⟨k' - 1, by omega⟩
    rcases cx with _ | x <;> rcases cy with _ | y <;> simp only [flip] at h ⊢
    · exact h
    · exact h
    · cases h
    · exact ih (by omega) h

theorem rounds_mono {fuel fuel' : ℕ} (hf : fuel ≤ fuel') : ∀ {k : ℕ} {s s' : State n},
    rounds A c fuel k s = .ok s' → rounds A c fuel' k s = .ok s' := by
  intro k
  induction k with
  | zero => intro s s' h; exact h
  | succ k ih =>
    intro s s' h
    unfold rounds at h ⊢
    obtain ⟨s₁, h1, h⟩ := Outcome.bind_ok h
    have : round A c fuel' s = .ok s₁ := by
      unfold round at h1 ⊢
      obtain ⟨s₂, h2, h1⟩ := Outcome.bind_ok h1
      obtain ⟨s₃, h3, h1⟩ := Outcome.bind_ok h1
      simp only [h2, Outcome.bind, search_mono hf hf h3]
      rcases hfo : s₃.found with _ | ⟨x, y⟩
      · rw [hfo] at h1; exact h1
      · rw [hfo] at h1; exact flip_mono hf h1
    simp only [this, Outcome.bind]
    exact ih h

end Km

theorem kmAssignment_mono {A : IntArith} {fuel fuel' n : ℕ} {c : Fin n → Fin n → ℤ}
    (hf : fuel ≤ fuel') {l : List ℤ} (h : kmAssignment A fuel n c = .ok l) :
    kmAssignment A fuel' n c = .ok l := by
  unfold kmAssignment at h ⊢
  obtain ⟨s, h1, h⟩ := Outcome.bind_ok h
  simp only [Km.rounds_mono hf h1, Outcome.bind]
  exact h

/-! ## Overflow -/

/-- a fold in which a step fails fails, if every other step keeps what makes it fail -/
theorem foldOutcome_ub {σ α : Type} {f : σ → α → Outcome σ} {I : σ → Prop} {w : Why} {l : List α}
    (hf : ∀ s, ∀ a ∈ l, I s → f s a = .ub w ∨ ∃ s', f s a = .ok s' ∧ I s') {a : α} (ha : a ∈ l)
    (hfa : ∀ s, I s → f s a = .ub w) {s : σ} (hs : I s) : foldOutcome f l s = .ub w := by
  induction l generalizing s with
  | nil => simp at ha
  | cons b l ih =>
    rcases hf s b (by simp) hs with h | ⟨s', h, hs'⟩
    · simp [foldOutcome, h, Outcome.bind]
    · rcases List.mem_cons.1 ha with rfl | ha
      · rw [hfa s hs] at h; cases h
      · simp only [foldOutcome, h, Outcome.bind]
        exact ih (fun s c hc => hf s c (by simp [hc])) ha hs'

/-- In `int`: a matrix whose first row contains `INT_MIN` and a nonnegative number makes the very
first call of `compute_slack` overflow. -/
theorem kmAssignment_overflow {n : ℕ} {c : Fin n → Fin n → ℤ} (hn : 0 < n)
    (hrow : ∀ y, c ⟨0, hn⟩ y = -2 ^ 31 ∨ 0 ≤ c ⟨0, hn⟩ y ∧ c ⟨0, hn⟩ y < 2 ^ 31)
    {y₁ y₂ : Fin n} (h1 : 0 ≤ c ⟨0, hn⟩ y₁) (h2 : c ⟨0, hn⟩ y₂ = -2 ^ 31) (fuel : ℕ) :
    kmAssignment int32 fuel n c = .ub .intOverflow := by
  obtain ⟨m1, y₃, m2⟩ := Km.rowMax_spec c ⟨0, hn⟩
  have hm0 : 0 ≤ Km.rowMax c ⟨0, hn⟩ := h1.trans (m1 y₁)
  have hm1 : Km.rowMax c ⟨0, hn⟩ < 2 ^ 31 := by
    rcases hrow y₃ with h | h <;> rw [m2] <;> omega
  have hstart : Km.start int32 c (Km.init c) = .ub .intOverflow := by
    have hfind : (List.finRange n).find? (fun x => ((Km.init c).xy x).isNone) = some ⟨0, hn⟩ := by
      obtain ⟨m, rfl⟩ : ∃ m, n = m + 1 := ⟨n - 1, by omega⟩
      rw [List.finRange_succ]
      rfl
    unfold Km.start
    simp only [hfind]
    unfold Km.computeSlack
    refine foldOutcome_ub (I := fun s : Km.State n => s.lx = Km.rowMax c ∧ s.ly = fun _ => 0)
      (a := y₂) ?_ (List.mem_finRange _) ?_ ⟨rfl, rfl⟩
    · rintro s y - ⟨e1, e2⟩
      unfold Km.slackStep
      simp only [e1, e2, add_zero]
      rw [show int32.chk (Km.rowMax c ⟨0, hn⟩) = .ok (Km.rowMax c ⟨0, hn⟩) from
        if_pos ⟨by omega, by omega⟩]
      simp only [Outcome.bind]
      rcases hrow y with h | h
      · left
        rw [show int32.chk (Km.rowMax c ⟨0, hn⟩ - c ⟨0, hn⟩ y) = .ub .intOverflow from
          if_neg (by omega)]
      · right
        rw [show int32.chk (Km.rowMax c ⟨0, hn⟩ - c ⟨0, hn⟩ y) =
          .ok (Km.rowMax c ⟨0, hn⟩ - c ⟨0, hn⟩ y) from if_pos ⟨by omega, by omega⟩]
        simp only
        split
        · exact ⟨_, rfl, rfl, rfl⟩
        · exact ⟨_, rfl, e1, e2⟩
    · rintro s ⟨e1, e2⟩
      unfold Km.slackStep
      simp only [e1, e2, add_zero]
      rw [show int32.chk (Km.rowMax c ⟨0, hn⟩) = .ok (Km.rowMax c ⟨0, hn⟩) from
        if_pos ⟨by omega, by omega⟩]
      simp only [Outcome.bind]
      rw [show int32.chk (Km.rowMax c ⟨0, hn⟩ - c ⟨0, hn⟩ y₂) = .ub .intOverflow from
          if_neg (by omega)]
  unfold kmAssignment
  obtain ⟨m, hm⟩ : ∃ m, n = m + 1 := ⟨n - 1, by omega⟩
  have : Km.rounds int32 c fuel n (Km.init c) = .ub .intOverflow := by
    rw [show Km.rounds int32 c fuel n (Km.init c) = Km.rounds int32 c fuel (m + 1) (Km.init c) from
      by rw [← hm]]
    simp only [Km.rounds, Km.round, hstart, Outcome.bind]
  simp only [this, Outcome.bind]

/-- in exact arithmetic every matrix fits -/
theorem fits_exact {n : ℕ} {c : Fin n → Fin n → ℤ} {R : ℤ} (h : ∀ x y y', c x y - c x y' ≤ R)
    {top : ℤ} (ht : 2 * R < top) : Km.Fits (exactInt top) c R :=
  ⟨h, fun _ _ _ => rfl, fun _ _ _ _ _ _ => rfl, ht⟩

/-- in `int` every matrix fits whose rows are constant or have entries from 0 to 2^30 - 1 -/
theorem fits_int32 {n : ℕ} {c : Fin n → Fin n → ℤ}
    (h : ∀ x, (∀ y, 0 ≤ c x y ∧ c x y < 2 ^ 30) ∨ ∀ y, c x y = -2 ^ 31) :
    Km.Fits int32 c (2 ^ 30 - 1) := by
  refine ⟨fun x y y' => ?_, fun z h1 h2 => if_pos ⟨by omega, by omega⟩,
    fun x y y' z h1 h2 => if_pos ?_, by simp [int32]⟩
  · rcases h x with h | h
    · have := h y; have := h y'; omega
    · rw [h y, h y']; simp
  · rcases h x with h | h
    · have := h y; have := h y'; omega
    · rw [h y] at h1; rw [h y'] at h2; omega

theorem wrap32_chk {z : ℤ} (h1 : -2 ^ 31 ≤ z) (h2 : z ≤ 2 ^ 31 - 1) : wrap32.chk z = .ok z := by
  simp only [wrap32, BitVec.toInt_ofInt]
  congr 1
  rw [Int.bmod_eq_of_le] <;> omega

/-- the same with wraparound -/
theorem fits_wrap32 {n : ℕ} {c : Fin n → Fin n → ℤ}
    (h : ∀ x, (∀ y, 0 ≤ c x y ∧ c x y < 2 ^ 30) ∨ ∀ y, c x y = -2 ^ 31) :
    Km.Fits wrap32 c (2 ^ 30 - 1) := by
  obtain ⟨h1, -, -, -⟩ := fits_int32 h
  refine ⟨h1, fun z h1 h2 => wrap32_chk (by omega) (by omega),
    fun x y y' z h1 h2 => wrap32_chk ?_ ?_, by simp [wrap32]⟩
  · rcases h x with h | h
    · have := h y; omega
    · rw [h y] at h1; exact h1
  · rcases h x with h | h
    · have := h y'; omega
    · rw [h y'] at h2; omega

end Mot
