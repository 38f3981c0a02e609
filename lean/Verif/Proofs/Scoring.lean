import Verif.Model.Scoring
import Verif.Proofs.Maps
import Mathlib.Data.List.Flatten
/-! # Lemmas about score maps and gating -/

namespace Mot

section Score
variable {τ δ α S C S' C' : Type} [TrackOps τ S C] [TrackOps δ S' C']

/-- entry `(k, s)` of the row of `t` -/
theorem scoreRow_foldl (metric : τ → δ → Option α) (t : τ) (ds : List δ) (m : ScoreMapOf α)
    (k : UuidPair) (s : α) :
    (ds.foldl (scoreRow metric t) m).find? k = some s ↔
      (∃ d₁ d d₂, ds = d₁ ++ d :: d₂ ∧ mkPair (TrackOps.uuid t) (TrackOps.uuid d) = k ∧
        metric t d = some s ∧
        ∀ d' ∈ d₂, mkPair (TrackOps.uuid t) (TrackOps.uuid d') = k → metric t d' = none) ∨
      (m.find? k = some s ∧
        ∀ d' ∈ ds, mkPair (TrackOps.uuid t) (TrackOps.uuid d') = k → metric t d' = none) := by
  induction ds using List.reverseRecOn with
  | nil => simp
  | append_singleton ds d ih =>
    rw [List.foldl_append, List.foldl_cons, List.foldl_nil]
    set m' := ds.foldl (scoreRow metric t) m with hm'
    by_cases hk : mkPair (TrackOps.uuid t) (TrackOps.uuid d) = k
    · cases hmet : metric t d with
      | none =>
        have : scoreRow metric t m' d = m' := by simp [scoreRow, hmet]
        rw [this, ih]
        constructor
        · rintro (⟨d₁, d', d₂, rfl, h1, h2, h3⟩ | ⟨h1, h2⟩)
          · refine .inl ⟨d₁, d', d₂ ++ [d], by simp, h1, h2, ?_⟩
            intro x hx hxk
            rcases List.mem_append.1 hx with hx | hx
            · exact h3 x hx hxk
            · rw [List.mem_singleton.1 hx]; exact hmet
          · refine .inr ⟨h1, ?_⟩
            intro x hx hxk
            rcases List.mem_append.1 hx with hx | hx
            · exact h2 x hx hxk
            · rw [List.mem_singleton.1 hx]; exact hmet
        · rintro (⟨d₁, d', d₂, he, h1, h2, h3⟩ | ⟨h1, h2⟩)
          · rcases List.eq_nil_or_concat d₂ with rfl | ⟨d₃, e, rfl⟩
            · have := List.append_inj_right' he rfl
              simp only [List.cons.injEq, and_true] at this
              subst this; rw [hmet] at h2; simp at h2
            · have he' : ds ++ [d] = (d₁ ++ d' :: d₃) ++ [e] := by rw [he]; simp
              obtain ⟨rfl, _⟩ := List.append_inj' he' rfl
              exact .inl ⟨d₁, d', d₃, rfl, h1, h2, fun x hx => h3 x (by simp [hx])⟩
          · exact .inr ⟨h1, fun x hx => h2 x (by simp [hx])⟩
      | some s' =>
        have : scoreRow metric t m' d = m'.set k s' := by simp [scoreRow, hmet, ← hk]
        rw [this, SMap.find?_set, if_pos rfl]
        constructor
        · intro h
          exact .inl ⟨ds, d, [], by simp, hk, by rw [hmet, h], by simp⟩
        · rintro (⟨d₁, d', d₂, he, h1, h2, h3⟩ | ⟨h1, h2⟩)
          · rcases List.eq_nil_or_concat d₂ with rfl | ⟨d₃, e, rfl⟩
            · have := List.append_inj_right' he rfl
              simp only [List.cons.injEq, and_true] at this
              subst this; rw [← hmet, h2]
            · have he' : ds ++ [d] = (d₁ ++ d' :: d₃) ++ [e] := by rw [he]; simp
              obtain ⟨_, h4⟩ := List.append_inj' he' rfl
              simp only [List.cons.injEq, and_true] at h4
              have := h3 e (by simp) (by rw [← h4]; exact hk)
              rw [← h4, hmet] at this; simp at this
          · have := h2 d (by simp) hk
            rw [hmet] at this; simp at this
  -- different key: the last detection does not matter
    · have : (scoreRow metric t m' d).find? k = m'.find? k := by
        unfold scoreRow
        split
        · rw [SMap.find?_set, if_neg (Ne.symm hk)]
        · rfl
      rw [this, ih]
      constructor
      · rintro (⟨d₁, d', d₂, rfl, h1, h2, h3⟩ | ⟨h1, h2⟩)
        · refine .inl ⟨d₁, d', d₂ ++ [d], by simp, h1, h2, ?_⟩
          intro x hx hxk
          rcases List.mem_append.1 hx with hx | hx
          · exact h3 x hx hxk
          · rw [List.mem_singleton.1 hx] at hxk; exact absurd hxk hk
        · refine .inr ⟨h1, ?_⟩
          intro x hx hxk
          rcases List.mem_append.1 hx with hx | hx
          · exact h2 x hx hxk
          · rw [List.mem_singleton.1 hx] at hxk; exact absurd hxk hk
      · rintro (⟨d₁, d', d₂, he, h1, h2, h3⟩ | ⟨h1, h2⟩)
        · rcases List.eq_nil_or_concat d₂ with rfl | ⟨d₃, e, rfl⟩
          · have := List.append_inj_right' he rfl
            simp only [List.cons.injEq, and_true] at this
            subst this; exact absurd h1 hk
          · have he' : ds ++ [d] = (d₁ ++ d' :: d₃) ++ [e] := by rw [he]; simp
            obtain ⟨rfl, _⟩ := List.append_inj' he' rfl
            exact .inl ⟨d₁, d', d₃, rfl, h1, h2, fun x hx => h3 x (by simp [hx])⟩
        · exact .inr ⟨h1, fun x hx => h2 x (by simp [hx])⟩

/-- the last scored pair with a given key, in track-major order, determines the entry -/
theorem score_find?_iff (metric : τ → δ → Option α) (ts : List τ) (ds : List δ)
    (k : UuidPair) (s : α) :
    (scoreTracksAndDetections ts ds metric).find? k = some s ↔
      ∃ t₁ t t₂ d₁ d d₂, ts = t₁ ++ t :: t₂ ∧ ds = d₁ ++ d :: d₂ ∧
        mkPair (TrackOps.uuid t) (TrackOps.uuid d) = k ∧ metric t d = some s ∧
        (∀ d' ∈ d₂, mkPair (TrackOps.uuid t) (TrackOps.uuid d') = k → metric t d' = none) ∧
        (∀ t' ∈ t₂, ∀ d' ∈ ds,
          mkPair (TrackOps.uuid t') (TrackOps.uuid d') = k → metric t' d' = none) := by
  unfold scoreTracksAndDetections
  induction ts using List.reverseRecOn with
  | nil => simp
  | append_singleton ts t ih =>
    rw [List.foldl_append, List.foldl_cons, List.foldl_nil, scoreRow_foldl, ih]
    constructor
    · rintro (⟨d₁, d, d₂, he, h1, h2, h3⟩ | ⟨⟨t₁, t', t₂, d₁, d, d₂, rfl, he, h1, h2, h3, h4⟩, h5⟩)
      · exact ⟨ts, t, [], d₁, d, d₂, by simp, he, h1, h2, h3, by simp⟩
      · refine ⟨t₁, t', t₂ ++ [t], d₁, d, d₂, by simp, he, h1, h2, h3, ?_⟩
        intro x hx
        rcases List.mem_append.1 hx with hx | hx
        · exact h4 x hx
        · rw [List.mem_singleton.1 hx]; exact h5
    · rintro ⟨t₁, t', t₂, d₁, d, d₂, he', he, h1, h2, h3, h4⟩
      rcases List.eq_nil_or_concat t₂ with rfl | ⟨t₃, e, rfl⟩
      · have := List.append_inj_right' he' rfl
        simp only [List.cons.injEq, and_true] at this
        subst this
        exact .inl ⟨d₁, d, d₂, he, h1, h2, h3⟩
      · have he'' : ts ++ [t] = (t₁ ++ t' :: t₃) ++ [e] := by rw [he']; simp
        obtain ⟨rfl, h5⟩ := List.append_inj' he'' rfl
        simp only [List.cons.injEq, and_true] at h5
        subst h5
        exact .inr ⟨⟨t₁, t', t₃, d₁, d, d₂, rfl, he, h1, h2, h3, fun x hx => h4 x (by simp [hx])⟩,
          h4 t (by simp)⟩

/-- the last element of a list with a property -/
theorem exists_last {β : Type} (p : β → Prop) (l : List β) (h : ∃ x ∈ l, p x) :
    ∃ l₁ x l₂, l = l₁ ++ x :: l₂ ∧ p x ∧ ∀ y ∈ l₂, ¬ p y := by
  induction l with
  | nil => simp at h
  | cons a l ih =>
    by_cases h' : ∃ x ∈ l, p x
    · obtain ⟨l₁, x, l₂, rfl, h1, h2⟩ := ih h'
      exact ⟨a :: l₁, x, l₂, rfl, h1, h2⟩
    · obtain ⟨x, hx, hp⟩ := h
      rcases List.mem_cons.1 hx with rfl | hx
      · exact ⟨[], x, l, rfl, hp, fun y hy hpy => h' ⟨y, hy, hpy⟩⟩
      · exact absurd ⟨x, hx, hp⟩ h'

theorem score_isSome_iff (metric : τ → δ → Option α) (ts : List τ) (ds : List δ)
    (a b : Uuid) :
    ((scoreTracksAndDetections ts ds metric).find? (mkPair a b)).isSome ↔
      ∃ t ∈ ts, ∃ d ∈ ds, TrackOps.uuid t = a ∧ TrackOps.uuid d = b ∧ (metric t d).isSome := by
  constructor
  · intro h
    obtain ⟨s, hs⟩ := Option.isSome_iff_exists.1 h
    obtain ⟨t₁, t, t₂, d₁, d, d₂, rfl, rfl, h1, h2, _, _⟩ := (score_find?_iff _ _ _ _ _).1 hs
    have h1' := (Prod.mk.injEq _ _ _ _).mp (show (TrackOps.uuid t, TrackOps.uuid d) = (a, b) from h1)
    exact ⟨t, by simp, d, by simp, h1'.1, h1'.2, by simp [h2]⟩
  · rintro ⟨t, ht, d, hd, rfl, rfl, hm⟩
    obtain ⟨t₁, t', t₂, rfl, ⟨d', hd', hk', hm'⟩, hlast⟩ := exists_last
      (fun t' : τ => ∃ d' ∈ ds, mkPair (TrackOps.uuid t') (TrackOps.uuid d')
        = mkPair (TrackOps.uuid t) (TrackOps.uuid d) ∧ (metric t' d').isSome) ts
      ⟨t, ht, d, hd, rfl, hm⟩
    obtain ⟨d₁, e, d₂, rfl, ⟨hke, hme⟩, hlast'⟩ := exists_last
      (fun d'' : δ => mkPair (TrackOps.uuid t') (TrackOps.uuid d'')
        = mkPair (TrackOps.uuid t) (TrackOps.uuid d) ∧ (metric t' d'').isSome) ds
      ⟨d', hd', hk', hm'⟩
    obtain ⟨s, hs⟩ := Option.isSome_iff_exists.1 hme
    rw [Option.isSome_iff_exists]
    refine ⟨s, (score_find?_iff _ _ _ _ _).2 ⟨t₁, t', t₂, d₁, e, d₂, rfl, rfl, hke, hs, ?_, ?_⟩⟩
    · intro x hx hk
      by_contra hne
      exact hlast' x hx ⟨hk, Option.isSome_iff_ne_none.2 hne⟩
    · intro y hy x hx hk
      by_contra hne
      exact hlast y hy ⟨x, hx, hk, Option.isSome_iff_ne_none.2 hne⟩

end Score

section Prune
variable {α σ : Type}

theorem find?_foldl_erase {K V : Type} [LinearOrder K] (ks : List K) (m : SMap K V) (k : K) :
    (ks.foldl SMap.erase m).find? k = if k ∈ ks then none else m.find? k := by
  induction ks generalizing m with
  | nil => simp
  | cons a ks ih =>
    rw [List.foldl_cons, ih]
    have : (m.erase a).find? k = if k = a then none else m.find? k := by
      unfold SMap.erase
      rw [SMap.find?_filter]
      by_cases h : k = a
      · subst h; cases m.find? k <;> simp [Option.filter]
      · cases m.find? k <;> simp [h, Option.filter]
    rw [this]
    by_cases h1 : k ∈ ks <;> by_cases h2 : k = a <;> simp [h1, h2]

/-- which keys are collected -/
theorem mem_keysToPrune (pred : σ → α → Bool × σ) (s : σ) (l : List (UuidPair × α))
    (k : UuidPair) :
    k ∈ keysToPrune pred s l ↔ ∃ l₁ a l₂, l = l₁ ++ (k, a) :: l₂ ∧
      (pred (l₁.foldl (fun s e => (pred s e.2).2) s) a).1 = true := by
  induction l generalizing s with
  | nil => simp [keysToPrune]
  | cons e l ih =>
    obtain ⟨k', a'⟩ := e
    simp only [keysToPrune]
    have key : (∃ l₁ a l₂, (k', a') :: l = l₁ ++ (k, a) :: l₂ ∧
        (pred (l₁.foldl (fun s e => (pred s e.2).2) s) a).1 = true) ↔
        (k' = k ∧ (pred s a').1 = true) ∨ k ∈ keysToPrune pred (pred s a').2 l := by
      rw [ih]
      constructor
      · rintro ⟨l₁, a, l₂, he, h⟩
        cases l₁ with
        | nil =>
          simp only [List.nil_append, List.cons.injEq, Prod.mk.injEq] at he
          obtain ⟨⟨rfl, rfl⟩, rfl⟩ := he
          exact .inl ⟨rfl, h⟩
        | cons b l₁ =>
          simp only [List.cons_append, List.cons.injEq] at he
          obtain ⟨rfl, rfl⟩ := he
          exact .inr ⟨l₁, a, l₂, rfl, h⟩
      · rintro (⟨rfl, h⟩ | ⟨l₁, a, l₂, rfl, h⟩)
        · exact ⟨[], a', l, rfl, h⟩
        · exact ⟨(k', a') :: l₁, a, l₂, rfl, h⟩
    rw [key]
    by_cases hp : (pred s a').1 = true
    · simp [hp, eq_comm]
    · simp [hp]

end Prune

end Mot
