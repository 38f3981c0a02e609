import Mathlib.Order.Basic
import Mathlib.Data.Prod.Lex
import Mathlib.Data.List.Pairwise
import Mathlib.Data.List.Nodup
import Mathlib.Data.List.Perm.Basic
/-!
# Standard containers

* `SMap K V` – `std::map<K, V>`: association list strictly sorted by key; iteration
  order is list order.
* `SSet K` – `std::set<K>`: strictly sorted list.
* `UMap K V` – `std::unordered_map<K, V>`: association list without repeated keys in
  *some* order.
-/

namespace Mot

/-! ## Sorted association lists -/

namespace AList
variable {K V : Type}

/-- lookup of a key -/
def find? [DecidableEq K] (k : K) : List (K × V) → Option V
  | [] => none
  | (k', v) :: l => if k' = k then some v else find? k l

/-- sorted insertion, overwriting an existing value (`m[k] = v`) -/
def set [LinearOrder K] (k : K) (v : V) : List (K × V) → List (K × V)
  | [] => [(k, v)]
  | (k', v') :: l =>
    if k < k' then (k, v) :: (k', v') :: l
    else if k = k' then (k, v) :: l
    else (k', v') :: set k v l

theorem mem_set [LinearOrder K] {k : K} {v : V} {l : List (K × V)} {x : K × V}
    (h : x ∈ set k v l) : x = (k, v) ∨ x ∈ l := by
  induction l with
  | nil => simpa [set] using h
  | cons a l ih =>
    obtain ⟨k', v'⟩ := a
    simp only [set] at h
    split at h
    · simpa using h
    · split at h
      · rcases List.mem_cons.1 h with h | h
        · exact .inl h
        · exact .inr (List.mem_cons_of_mem _ h)
      · rcases List.mem_cons.1 h with h | h
        · exact .inr (by simp [h])
        · rcases ih h with h | h
          · exact .inl h
          · exact .inr (List.mem_cons_of_mem _ h)

theorem set_sorted [LinearOrder K] (k : K) (v : V) (l : List (K × V))
    (hl : l.Pairwise (fun a b => a.1 < b.1)) :
    (set k v l).Pairwise (fun a b => a.1 < b.1) := by
  induction l with
  | nil => simp [set]
  | cons a l ih =>
    obtain ⟨k', v'⟩ := a
    have hl' := List.pairwise_cons.1 hl
    simp only [set]
    split
    · rename_i h
      refine List.pairwise_cons.2 ⟨?_, hl⟩
      intro b hb
      rcases List.mem_cons.1 hb with rfl | hb
      · exact h
      · exact lt_trans h (hl'.1 b hb)
    · split
      · rename_i h1 h2
        subst h2
        exact List.pairwise_cons.2 ⟨hl'.1, hl'.2⟩
      · rename_i h1 h2
        refine List.pairwise_cons.2 ⟨?_, ih hl'.2⟩
        intro b hb
        rcases mem_set hb with rfl | hb
        · exact lt_of_le_of_ne (not_lt.1 h1) (Ne.symm h2)
        · exact hl'.1 b hb

end AList

/-- `std::map<K, V>` -/
structure SMap (K V : Type) [LinearOrder K] where
  /-- entries in iteration order -/
  entries : List (K × V)
  sorted : entries.Pairwise (fun a b => a.1 < b.1)

namespace SMap
variable {K V : Type} [LinearOrder K]

/-- default constructor -/
def empty : SMap K V := ⟨[], .nil⟩

/-- `m.find(k)` -/
def find? (m : SMap K V) (k : K) : Option V := AList.find? k m.entries

/-- `m.count(k)` -/
def count (m : SMap K V) (k : K) : ℕ := if (m.find? k).isSome then 1 else 0

/-- `m[k] = v` -/
def set (m : SMap K V) (k : K) (v : V) : SMap K V :=
  ⟨AList.set k v m.entries, AList.set_sorted k v m.entries m.sorted⟩

/-- keys in iteration order -/
def keys (m : SMap K V) : List K := m.entries.map (·.1)

/-- keep the entries satisfying a predicate (used for erasure) -/
def filter (p : K × V → Bool) (m : SMap K V) : SMap K V :=
  ⟨m.entries.filter p, m.sorted.sublist List.filter_sublist⟩

end SMap

/-- sorted insertion without repetition -/
def SList.insert {K : Type} [LinearOrder K] (k : K) : List K → List K
  | [] => [k]
  | k' :: l => if k < k' then k :: k' :: l else if k = k' then k' :: l else k' :: insert k l

theorem SList.mem_insert {K : Type} [LinearOrder K] (k : K) (l : List K) (x : K) :
    x ∈ SList.insert k l ↔ x = k ∨ x ∈ l := by
  induction l with
  | nil => simp [SList.insert]
  | cons a l ih =>
    simp only [SList.insert]
    split
    · simp
    · split
      · rename_i h; subst h; simp
      · simp [ih]; tauto

theorem SList.insert_sorted {K : Type} [LinearOrder K] (k : K) (l : List K)
    (hl : l.Pairwise (· < ·)) : (SList.insert k l).Pairwise (· < ·) := by
  induction l with
  | nil => simp [SList.insert]
  | cons a l ih =>
    have hl' := List.pairwise_cons.1 hl
    simp only [SList.insert]
    split
    · rename_i h
      refine List.pairwise_cons.2 ⟨?_, hl⟩
      intro b hb
      rcases List.mem_cons.1 hb with rfl | hb
      · exact h
      · exact lt_trans h (hl'.1 b hb)
    · split
      · exact hl
      · rename_i h1 h2
        refine List.pairwise_cons.2 ⟨?_, ih hl'.2⟩
        intro b hb
        rcases (SList.mem_insert _ _ _).1 hb with rfl | hb
        · exact lt_of_le_of_ne (not_lt.1 h1) (Ne.symm h2)
        · exact hl'.1 b hb

/-- `std::set<K>` -/
structure SSet (K : Type) [LinearOrder K] where
  /-- elements in iteration order -/
  elems : List K
  sorted : elems.Pairwise (· < ·)

namespace SSet
variable {K : Type} [LinearOrder K]

/-- default constructor -/
def empty : SSet K := ⟨[], .nil⟩

/-- `s.insert(k)` -/
def insert (s : SSet K) (k : K) : SSet K :=
  ⟨SList.insert k s.elems, SList.insert_sorted k s.elems s.sorted⟩

/-- `s.size()` -/
def size (s : SSet K) : ℕ := s.elems.length

end SSet

/-! ## Unordered maps -/

/-- `std::unordered_map<K, V>`: unique keys in an unspecified order. -/
structure UMap (K V : Type) where
  /-- entries in (unspecified) iteration order -/
  entries : List (K × V)
  nodup : (entries.map (·.1)).Nodup

namespace UMap
variable {K V : Type} [DecidableEq K]

/-- default constructor -/
def empty : UMap K V := ⟨[], List.nodup_nil⟩

/-- `m.find(k)` -/
def find? (m : UMap K V) (k : K) : Option V := AList.find? k m.entries

/-- `m.count(k)` -/
def count (m : UMap K V) (k : K) : ℕ := if (m.find? k).isSome then 1 else 0

/-- `m.erase(k)`; the order of the remaining elements is preserved
([unord.req.except] / LWG 2356), so erasing inside a loop visits the same remaining
elements. -/
def erase (m : UMap K V) (k : K) : UMap K V :=
  ⟨m.entries.filter (fun e => e.1 ≠ k),
   m.nodup.sublist (List.filter_sublist.map _)⟩

/-- replace the value of an existing key in place -/
def replace (m : UMap K V) (k : K) (v : V) : UMap K V :=
  ⟨m.entries.map (fun e => if e.1 = k then (e.1, v) else e), by
    have : (m.entries.map (fun e => if e.1 = k then (e.1, v) else e)).map (·.1)
        = m.entries.map (·.1) := by
      rw [List.map_map]
      refine List.map_congr_left ?_
      intro e _
      by_cases h : e.1 = k <;> simp [h]
    rw [this]; exact m.nodup⟩

theorem _root_.Mot.AList.find?_eq_none {k : K} {l : List (K × V)} :
    AList.find? k l = none ↔ k ∉ l.map (·.1) := by
  induction l with
  | nil => simp [AList.find?]
  | cons a l ih =>
    obtain ⟨k', v'⟩ := a
    by_cases h : k' = k
    · simp [AList.find?, h]
    · simp [AList.find?, h, ih, Ne.symm h]

/-- `m[k] = v` / `m.insert_or_assign(k, v)` -/
def set (m : UMap K V) (k : K) (v : V) : UMap K V :=
  if h : m.find? k = none then
    ⟨(k, v) :: m.entries, by
      rw [List.map_cons, List.nodup_cons]
      exact ⟨AList.find?_eq_none.1 h, m.nodup⟩⟩
  else m.replace k v

/-- `for (auto & [k, v] : m) v = f(k, v);` -/
def mapVals (m : UMap K V) (f : K → V → V) : UMap K V :=
  ⟨m.entries.map (fun e => (e.1, f e.1 e.2)), by
    have : (m.entries.map (fun e => (e.1, f e.1 e.2))).map (·.1) = m.entries.map (·.1) := by
      rw [List.map_map]; rfl
    rw [this]; exact m.nodup⟩

/-- keys in iteration order -/
def keys (m : UMap K V) : List K := m.entries.map (·.1)

end UMap

end Mot
