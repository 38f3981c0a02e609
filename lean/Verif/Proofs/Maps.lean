import Verif.Model.StdMap
/-! # Lemmas about the container models -/

namespace Mot

namespace AList
variable {K V : Type} [DecidableEq K]

theorem find?_isSome {k : K} {l : List (K × V)} :
    (find? k l).isSome ↔ k ∈ l.map (·.1) := by
  rw [Option.isSome_iff_ne_none, Ne, AList.find?_eq_none, not_not]

theorem mem_of_find? {k : K} {v : V} {l : List (K × V)} (h : find? k l = some v) :
    (k, v) ∈ l := by
  induction l with
  | nil => simp [find?] at h
  | cons a l ih =>
    obtain ⟨k', v'⟩ := a
    by_cases hk : k' = k
    · simp [find?, hk] at h; simp [hk, h]
    · simp only [find?, hk, if_false] at h; exact List.mem_cons_of_mem _ (ih h)

theorem find?_of_mem {k : K} {v : V} {l : List (K × V)} (hn : (l.map (·.1)).Nodup)
    (h : (k, v) ∈ l) : find? k l = some v := by
  induction l with
  | nil => simp at h
  | cons a l ih =>
    obtain ⟨k', v'⟩ := a
    rw [List.map_cons, List.nodup_cons] at hn
    rcases List.mem_cons.1 h with h | h
    · cases h; simp [find?]
    · have hk : k' ≠ k := by
        rintro rfl
        exact hn.1 (List.mem_map.2 ⟨_, h, rfl⟩)
      simp only [find?, hk, if_false]; exact ih hn.2 h

theorem find?_eq_some {k : K} {v : V} {l : List (K × V)} (hn : (l.map (·.1)).Nodup) :
    find? k l = some v ↔ (k, v) ∈ l :=
  ⟨mem_of_find?, find?_of_mem hn⟩

theorem find?_perm {l l' : List (K × V)} (hn : (l.map (·.1)).Nodup) (h : l.Perm l') (k : K) :
    find? k l = find? k l' := by
  have hn' : (l'.map (·.1)).Nodup := (h.map _).nodup_iff.1 hn
  ext v
  rw [find?_eq_some hn, find?_eq_some hn', h.mem_iff]

theorem find?_filter {k : K} {l : List (K × V)} (hn : (l.map (·.1)).Nodup)
    (p : K × V → Bool) :
    find? k (l.filter p) = (find? k l).filter (fun v => p (k, v)) := by
  have hn' : ((l.filter p).map (·.1)).Nodup := hn.sublist (List.filter_sublist.map _)
  ext v
  rw [find?_eq_some hn', List.mem_filter, Option.filter_eq_some_iff, find?_eq_some hn]

theorem find?_map_vals {k : K} {l : List (K × V)} {W : Type} (f : K → V → W) :
    find? k (l.map (fun e => (e.1, f e.1 e.2))) = (find? k l).map (f k) := by
  induction l with
  | nil => simp [find?]
  | cons a l ih =>
    obtain ⟨k', v'⟩ := a
    by_cases hk : k' = k
    · subst hk; simp [find?]
    · simp [find?, hk, ih]

theorem find?_replace {k k' : K} {v : V} {l : List (K × V)} :
    find? k' (l.map (fun e => if e.1 = k then (e.1, v) else e))
      = if k' = k then (find? k' l).map (fun _ => v) else find? k' l := by
  have : (l.map (fun e => if e.1 = k then (e.1, v) else e))
      = l.map (fun e => (e.1, (fun a w => if a = k then v else w) e.1 e.2)) := by
    refine List.map_congr_left ?_
    rintro ⟨a, b⟩ _
    by_cases h : a = k <;> simp [h]
  rw [this, find?_map_vals (f := fun a w => if a = k then v else w)]
  by_cases h : k' = k
  · simp [h]
  · simp [h]

end AList

namespace UMap
variable {K V : Type} [DecidableEq K]

theorem find?_isSome {m : UMap K V} {k : K} : (m.find? k).isSome ↔ k ∈ m.keys :=
  AList.find?_isSome

theorem find?_eq_some {m : UMap K V} {k : K} {v : V} :
    m.find? k = some v ↔ (k, v) ∈ m.entries := AList.find?_eq_some m.nodup

@[simp] theorem find?_empty (k : K) : (empty : UMap K V).find? k = none := rfl

theorem find?_erase (m : UMap K V) (k k' : K) :
    (m.erase k).find? k' = if k' = k then none else m.find? k' := by
  show AList.find? k' (m.entries.filter _) = _
  rw [AList.find?_filter m.nodup]
  by_cases h : k' = k
  · simp [h, Option.filter]; cases AList.find? k m.entries <;> simp
  · simp only [h, if_false, ne_eq, decide_not, decide_false, Bool.not_false]
    show Option.filter _ (AList.find? k' m.entries) = AList.find? k' m.entries
    cases AList.find? k' m.entries <;> simp

theorem find?_replace (m : UMap K V) (k k' : K) (v : V) :
    (m.replace k v).find? k' =
      if k' = k then (m.find? k').map (fun _ => v) else m.find? k' :=
  AList.find?_replace

@[simp] theorem find?_set (m : UMap K V) (k k' : K) (v : V) :
    (m.set k v).find? k' = if k' = k then some v else m.find? k' := by
  unfold set
  split
  · by_cases h : k' = k
    · subst h; simp [find?, AList.find?]
    · simp [find?, AList.find?, h, Ne.symm h]
  · rename_i h
    rw [find?_replace]
    by_cases hk : k' = k
    · subst hk
      obtain ⟨w, hw⟩ := Option.ne_none_iff_exists'.1 h
      simp [hw]
    · simp [hk]

@[simp] theorem find?_mapVals (m : UMap K V) (f : K → V → V) (k : K) :
    (m.mapVals f).find? k = (m.find? k).map (f k) := AList.find?_map_vals f

theorem count_eq_zero {m : UMap K V} {k : K} : m.count k = 0 ↔ m.find? k = none := by
  unfold count; cases m.find? k <;> simp

end UMap

namespace SMap
variable {K V : Type} [LinearOrder K]

theorem nodup_keys (m : SMap K V) : (m.entries.map (·.1)).Nodup := by
  have h : (m.entries.map (·.1)).Pairwise (· < ·) := List.pairwise_map.2 m.sorted
  exact h.imp (fun h => ne_of_lt h)

theorem keys_sorted (m : SMap K V) : m.keys.Pairwise (· < ·) := List.pairwise_map.2 m.sorted

theorem find?_eq_some {m : SMap K V} {k : K} {v : V} :
    m.find? k = some v ↔ (k, v) ∈ m.entries := AList.find?_eq_some m.nodup_keys

theorem find?_isSome {m : SMap K V} {k : K} : (m.find? k).isSome ↔ k ∈ m.keys :=
  AList.find?_isSome

theorem find?_eq_none {m : SMap K V} {k : K} : m.find? k = none ↔ k ∉ m.keys :=
  AList.find?_eq_none

@[simp] theorem find?_empty (k : K) : (empty : SMap K V).find? k = none := rfl

theorem _root_.Mot.AList.find?_set_of_sorted {k k' : K} {v : V} {l : List (K × V)}
    (hl : l.Pairwise (fun a b => a.1 < b.1)) :
    AList.find? k' (AList.set k v l) = if k' = k then some v else AList.find? k' l := by
  induction l with
  | nil =>
    by_cases h : k' = k
    · simp [AList.set, AList.find?, h]
    · simp [AList.set, AList.find?, h, Ne.symm h]
  | cons a l ih =>
    obtain ⟨a, b⟩ := a
    have hl' := List.pairwise_cons.1 hl
    simp only [AList.set]
    split
    · by_cases h : k' = k
      · simp [AList.find?, h]
      · simp [AList.find?, h, Ne.symm h]
    · split
      · rename_i _ h2
        subst h2
        by_cases h : k' = k
        · simp [AList.find?, h]
        · simp [AList.find?, h, Ne.symm h]
      · rename_i h1 h2
        simp only [AList.find?, ih hl'.2]
        by_cases h : a = k'
        · subst h; simp [Ne.symm h2]
        · simp [h]

@[simp] theorem find?_set (m : SMap K V) (k k' : K) (v : V) :
    (m.set k v).find? k' = if k' = k then some v else m.find? k' :=
  AList.find?_set_of_sorted m.sorted

theorem find?_filter (m : SMap K V) (p : K × V → Bool) (k : K) :
    (m.filter p).find? k = (m.find? k).filter (fun v => p (k, v)) :=
  AList.find?_filter m.nodup_keys p

theorem count_eq_zero {m : SMap K V} {k : K} : m.count k = 0 ↔ k ∉ m.keys := by
  unfold count
  rw [← find?_isSome]
  cases m.find? k <;> simp

theorem keys_set (m : SMap K V) (k k' : K) (v : V) :
    k' ∈ (m.set k v).keys ↔ k' = k ∨ k' ∈ m.keys := by
  rw [← find?_isSome, find?_set, ← find?_isSome]
  by_cases h : k' = k <;> simp [h]

/-- Two maps with the same lookups are equal. -/
theorem ext_find? {m m' : SMap K V} (h : ∀ k, m.find? k = m'.find? k) : m = m' := by
  have hm : ∀ x, x ∈ m.entries ↔ x ∈ m'.entries := by
    rintro ⟨k, v⟩
    rw [← find?_eq_some, ← find?_eq_some, h]
  have hp : m.entries.Perm m'.entries :=
    (List.perm_ext_iff_of_nodup (List.Nodup.of_map _ m.nodup_keys)
      (List.Nodup.of_map _ m'.nodup_keys)).2 hm
  have : m.entries = m'.entries :=
    hp.eq_of_pairwise (le := fun a b => a.1 < b.1)
      (fun a b _ _ h1 h2 => absurd (lt_trans h1 h2) (lt_irrefl _)) m.sorted m'.sorted
  cases m; cases m'; cases this; rfl

end SMap

namespace SSet
variable {K : Type} [LinearOrder K]

theorem nodup (s : SSet K) : s.elems.Nodup := s.sorted.imp (fun h => ne_of_lt h)

@[simp] theorem mem_insert (s : SSet K) (k x : K) :
    x ∈ (s.insert k).elems ↔ x = k ∨ x ∈ s.elems := SList.mem_insert k s.elems x

theorem ext_mem {s s' : SSet K} (h : ∀ k, k ∈ s.elems ↔ k ∈ s'.elems) : s = s' := by
  have hp : s.elems.Perm s'.elems := (List.perm_ext_iff_of_nodup s.nodup s'.nodup).2 h
  have : s.elems = s'.elems :=
    hp.eq_of_pairwise (le := (· < ·))
      (fun a b _ _ h1 h2 => absurd (lt_trans h1 h2) (lt_irrefl _)) s.sorted s'.sorted
  cases s; cases s'; cases this; rfl

end SSet

end Mot
