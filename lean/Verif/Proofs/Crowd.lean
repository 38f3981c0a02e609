import Verif.Proofs.Period
import Verif.Spec.Crowd
import Mathlib.Algebra.BigOperators.Intervals
import Mathlib.Algebra.Order.BigOperators.Group.Finset
import Mathlib.Data.List.Nodup
import Mathlib.Data.Nat.Log
/-!
# Helper lemmas for the number of tracks

The tracks are kept in a list.  The first `D` of them have weight 1, the next `D` also, the
following `D` weight 2, then 4, and so on.  If there are at least `2 D` tracks, the weights of any
`D` of them sum up to at most half of all weights.  So the weighted sum of the counts does not grow
if `D` counts increase by one and the others decrease by one, and the number of tracks with positive
counts is logarithmic in the largest count.
-/

namespace Mot.Crowd

open Finset

/-- weight of the position `i` -/
def weight (D i : ℕ) : ℕ := if i < D then 1 else 2 ^ (i / D - 1)

theorem weight_pos (D i : ℕ) : 1 ≤ weight D i := by
  unfold weight
  split
  · exact le_rfl
  · exact Nat.one_le_two_pow

theorem weight_mono (D : ℕ) {i j : ℕ} (h : i ≤ j) : weight D i ≤ weight D j := by
  unfold weight
  split
  · split
    · exact le_rfl
    · exact Nat.one_le_two_pow
  · rw [if_neg (by omega)]
    exact Nat.pow_le_pow_right (by norm_num) (Nat.sub_le_sub_right (Nat.div_le_div_right h) 1)

theorem weight_two {D i : ℕ} (h : i < 2 * D) : weight D i = 1 := by
  unfold weight
  split
  · rfl
  · have : i / D < 2 := Nat.div_lt_of_lt_mul (by rwa [Nat.mul_comm])
    rw [show i / D - 1 = 0 by omega, pow_zero]

theorem weight_double {D i : ℕ} (hD : 0 < D) (h : D ≤ i) : weight D (i + D) = 2 * weight D i := by
  unfold weight
  rw [if_neg (by omega), if_neg (by omega), Nat.add_div_right i hD]
  have : 1 ≤ i / D := (Nat.one_le_div_iff hD).2 h
  rw [Nat.add_sub_cancel, ← pow_succ', Nat.sub_add_cancel this]

/-- sum of the weights of `n` positions from position `k` on -/
def total (D k n : ℕ) : ℕ := ∑ i ∈ range n, weight D (k + i)

theorem total_succ (D k n : ℕ) : total D k (n + 1) = total D k n + weight D (k + n) :=
  sum_range_succ _ _

theorem total_cons (D k n : ℕ) : total D k (n + 1) = weight D k + total D (k + 1) n := by
  unfold total
  rw [sum_range_succ', add_comm]
  congr 1
  exact sum_congr rfl fun i _ => by congr 1; omega

theorem total_shift (D k n : ℕ) : total D k n ≤ total D (k + 1) n :=
  sum_le_sum fun _ _ => weight_mono D (by omega)

theorem total_mono (D k : ℕ) {n n' : ℕ} (h : n ≤ n') : total D k n ≤ total D k n' :=
  sum_le_sum_of_subset_of_nonneg (range_mono h) fun _ _ _ => Nat.zero_le _

/-- adding `D` positions doubles the sum of the weights -/
theorem total_double {D : ℕ} (hD : 0 < D) (n : ℕ) : total D 0 (D + n + D) = 2 * total D 0 (D + n) := by
  induction n with
  | zero =>
    have h1 : ∀ m, m ≤ 2 * D → total D 0 m = m := by
      intro m hm
      unfold total
      rw [sum_congr rfl fun i hi => weight_two (D := D) (i := 0 + i)
        (by have := mem_range.1 hi; omega)]
      simp
    rw [h1 _ (by omega), h1 _ (by omega)]
    omega
  | succ n ih =>
    rw [show D + (n + 1) + D = (D + n + D) + 1 by omega, show D + (n + 1) = (D + n) + 1 by omega,
      total_succ, total_succ, ih, Nat.zero_add, Nat.zero_add, weight_double hD (by omega)]
    omega

/-- the sum of the weights of `m` blocks -/
theorem total_blocks {D : ℕ} (hD : 0 < D) (m : ℕ) : total D 0 ((m + 1) * D) = D * 2 ^ m := by
  induction m with
  | zero =>
    unfold total
    rw [sum_congr rfl fun i hi => weight_two (D := D) (i := 0 + i)
      (by have := mem_range.1 hi; omega)]
    simp
  | succ m ih =>
    have := total_double hD (m * D)
    rw [show D + m * D + D = (m + 1 + 1) * D by ring, show D + m * D = (m + 1) * D by ring, ih] at this
    rw [this, pow_succ]
    ring

/-- weighted sum of a list of numbers, from position `k` on -/
def wsum (D : ℕ) : ℕ → List ℕ → ℕ
  | _, [] => 0
  | k, x :: l => weight D k * x + wsum D (k + 1) l

theorem wsum_shift (D k : ℕ) (l : List ℕ) : wsum D k l ≤ wsum D (k + 1) l := by
  induction l generalizing k with
  | nil => exact le_rfl
  | cons x l ih =>
    exact Nat.add_le_add (Nat.mul_le_mul_right _ (weight_mono D (by omega))) (ih (k + 1))

theorem wsum_sublist (D k : ℕ) {l l' : List ℕ} (h : l.Sublist l') : wsum D k l ≤ wsum D k l' := by
  induction h generalizing k with
  | slnil => exact le_rfl
  | cons x _ ih => exact ((ih k).trans (wsum_shift D k _)).trans (Nat.le_add_left _ _)
  | cons_cons x _ ih => exact Nat.add_le_add_left (ih (k + 1)) _

theorem wsum_append_zero (D k n : ℕ) (l : List ℕ) : wsum D k (l ++ List.replicate n 0) = wsum D k l := by
  induction l generalizing k with
  | nil =>
    induction n generalizing k with
    | zero => rfl
    | succ n ih =>
      have := ih (k + 1)
      rw [List.nil_append] at this
      simp only [List.nil_append, List.replicate_succ, wsum, Nat.mul_zero, Nat.zero_add] at this ⊢
      exact this
  | cons x l ih => rw [List.cons_append, wsum, wsum, ih]

theorem wsum_ones (D k : ℕ) {l : List ℕ} (h : ∀ x ∈ l, 1 ≤ x) : total D k l.length ≤ wsum D k l := by
  induction l generalizing k with
  | nil => exact le_rfl
  | cons x l ih =>
    rw [List.length_cons, total_cons, wsum]
    exact Nat.add_le_add (Nat.le_mul_of_pos_right _ (h x (by simp)))
      (ih (k + 1) fun y hy => h y (by simp [hy]))

theorem wsum_small {D k B : ℕ} {l : List ℕ} (hk : k + l.length ≤ 2 * D) (h : ∀ x ∈ l, x ≤ B) :
    wsum D k l ≤ l.length * B := by
  induction l generalizing k with
  | nil => exact Nat.zero_le _
  | cons x l ih =>
    rw [List.length_cons] at hk
    rw [List.length_cons, wsum, weight_two (by omega), Nat.one_mul, Nat.succ_mul, Nat.add_comm]
    exact Nat.add_le_add (ih (by omega) fun y hy => h y (by simp [hy])) (h x (by simp))

/-- the weights of the chosen positions -/
def chosen (D : ℕ) : ℕ → List Bool → ℕ
  | _, [] => 0
  | k, b :: l => (if b then weight D k else 0) + chosen D (k + 1) l

theorem chosen_le (D k : ℕ) (l : List Bool) :
    chosen D k l + total D k (l.length - l.count true) ≤ total D k l.length := by
  induction l generalizing k with
  | nil => exact le_rfl
  | cons b l ih =>
    have hc := List.count_le_length (a := true) (l := l)
    have := ih (k + 1)
    rw [List.length_cons, total_cons, chosen]
    cases b with
    | false =>
      rw [List.count_cons_of_ne (by decide), Nat.succ_sub hc, total_cons]
      simp only [Bool.false_eq_true, if_false]
      omega
    | true =>
      rw [List.count_cons_self, Nat.add_sub_add_right]
      have := total_shift D k (l.length - l.count true)
      simp only [if_true]
      omega

/-- at most `D` of at least `2 D` positions have at most half of the weight -/
theorem chosen_half {D : ℕ} (hD : 0 < D) {l : List Bool} (hl : 2 * D ≤ l.length)
    (hc : l.count true ≤ D) : 2 * chosen D 0 l ≤ total D 0 l.length := by
  have h1 := chosen_le D 0 l
  have h2 := total_mono D 0 (show l.length - D ≤ l.length - l.count true by omega)
  have h3 := total_double hD (l.length - D - D)
  rw [show D + (l.length - D - D) + D = l.length by omega,
    show D + (l.length - D - D) = l.length - D by omega] at h3
  omega

/-- one step: numbers that are chosen grow by at most one, the others (which must be positive)
decrease by at least one -/
theorem wsum_step (D k : ℕ) (l : List (ℕ × Bool × ℕ))
    (h : ∀ x ∈ l, x.2.2 ≤ x.1 + 1 ∧ (x.2.1 = false → x.2.2 + 1 ≤ x.1)) :
    wsum D k (l.map fun x => x.2.2) + total D k l.length ≤
      wsum D k (l.map fun x => x.1) + 2 * chosen D k (l.map fun x => x.2.1) := by
  induction l generalizing k with
  | nil => exact le_rfl
  | cons x l ih =>
    obtain ⟨h1, h2⟩ := h x (by simp)
    have := ih (k + 1) fun y hy => h y (by simp [hy])
    rw [List.length_cons, total_cons, List.map_cons, List.map_cons, List.map_cons, wsum, wsum, chosen]
    obtain ⟨a, b, c⟩ := x
    cases b with
    | false =>
      have h3 := Nat.mul_le_mul_left (weight D k) (h2 rfl)
      simp only [Bool.false_eq_true, if_false] at h3 ⊢
      rw [Nat.mul_add, Nat.mul_one] at h3
      omega
    | true =>
      have h3 := Nat.mul_le_mul_left (weight D k) h1
      simp only [if_true] at h3 ⊢
      rw [Nat.mul_add, Nat.mul_one] at h3
      omega

/-! ### lists of UUIDs -/

/-- the UUIDs with positive numbers can be listed so that the weighted sum is small -/
def Inv (D B : ℕ) (x : Uuid → ℕ) : Prop :=
  (∀ u, x u ≤ B) ∧
    ∃ L : List Uuid, L.Nodup ∧ (∀ u, u ∈ L ↔ 0 < x u) ∧ wsum D 0 (L.map x) ≤ (2 * D - 1) * B

theorem inv_zero (D B : ℕ) : Inv D B fun _ => 0 :=
  ⟨fun _ => Nat.zero_le _, [], List.nodup_nil, by simp, Nat.zero_le _⟩

open Classical in
theorem inv_step {D B : ℕ} (hD : 0 < D) {x x' : Uuid → ℕ} {K : List Uuid} (hK : K.length ≤ D)
    (h1 : ∀ u, x' u ≤ x u + 1) (h2 : ∀ u, u ∉ K → x' u ≤ x u - 1) (hB : ∀ u, x' u ≤ B)
    (h : Inv D B x) : Inv D B x' := by
  obtain ⟨-, L, hL, hm, hw⟩ := h
  refine ⟨hB, ?_⟩
  have hE : (K.dedup.filter fun u => u ∉ L).Nodup := (List.nodup_dedup K).filter _
  generalize hEe : (K.dedup.filter fun u => decide (u ∉ L)) = E at hE
  have hEm : ∀ u, u ∈ E ↔ u ∈ K ∧ u ∉ L := by
    intro u
    rw [← hEe]
    simp
  have hM : (L ++ E).Nodup := List.nodup_append.2 ⟨hL, hE, by
    rintro a ha b hb rfl
    exact ((hEm a).1 hb).2 ha⟩
  have hx0 : ∀ u, u ∉ L → x u = 0 := by
    intro u hu
    have : ¬ 0 < x u := fun h => hu ((hm u).2 h)
    omega
  refine ⟨(L ++ E).filter fun u => 0 < x' u, hM.filter _, ?_, ?_⟩
  · intro u
    rw [List.mem_filter, List.mem_append, hEm]
    refine ⟨fun h => by simpa using h.2, fun h => ⟨?_, by simpa using h⟩⟩
    by_cases hu : u ∈ L
    · exact .inl hu
    · refine .inr ⟨?_, hu⟩
      by_contra hk
      have := h2 u hk
      have := hx0 u hu
      omega
  · refine (wsum_sublist D 0 (List.filter_sublist.map x')).trans ?_
    by_cases hn : (L ++ E).length < 2 * D
    · refine (wsum_small (B := B) (by rw [List.length_map]; omega) ?_).trans ?_
      · intro y hy
        obtain ⟨u, -, rfl⟩ := List.mem_map.1 hy
        exact hB u
      · rw [List.length_map]
        exact Nat.mul_le_mul_right _ (by omega)
    · have hs := wsum_step D 0 ((L ++ E).map fun u => (x u, decide (u ∈ K), x' u)) (by
        intro y hy
        obtain ⟨u, hu, rfl⟩ := List.mem_map.1 hy
        refine ⟨h1 u, fun hk => ?_⟩
        have hk : u ∉ K := by simpa using hk
        have hu' : u ∈ L := by
          rcases List.mem_append.1 hu with h | h
          · exact h
          · exact absurd ((hEm u).1 h).1 hk
        have := (hm u).1 hu'
        have := h2 u hk
        show x' u + 1 ≤ x u
        omega)
      simp only [List.map_map, List.length_map, Function.comp_def] at hs
      have hc := chosen_half hD (l := (L ++ E).map fun u => decide (u ∈ K))
        (by rw [List.length_map]; omega) (by
          rw [List.count_eq_countP, List.countP_map, List.countP_eq_length_filter]
          refine le_trans (List.Subperm.length_le ?_) hK
          refine (List.subperm_of_subset (hM.filter _) ?_)
          intro u hu
          simpa using (List.mem_filter.1 hu).2)
      rw [List.length_map] at hc
      have hz : wsum D 0 ((L ++ E).map x) = wsum D 0 (L.map x) := by
        have : E.map x = List.replicate E.length 0 := by
          rw [List.eq_replicate_iff]
          refine ⟨List.length_map _, fun b hb => ?_⟩
          obtain ⟨u, hu, rfl⟩ := List.mem_map.1 hb
          exact hx0 u ((hEm u).1 hu).2
        rw [List.map_append, this, wsum_append_zero]
      have e : (fun u => x u) = x := rfl
      have e' : (fun u => x' u) = x' := rfl
      rw [e, e', hz] at hs
      omega

/-- the number of UUIDs with positive numbers -/
theorem inv_length {D B : ℕ} (hD : 0 < D) {x : Uuid → ℕ} (h : Inv D B x) {l : List Uuid} (hl : l.Nodup)
    (hx : ∀ u ∈ l, 0 < x u) {n : ℕ} (hn : (n + 1) * D ≤ l.length) : D * 2 ^ n ≤ (2 * D - 1) * B := by
  obtain ⟨-, L, -, hm, hw⟩ := h
  have hle : l.length ≤ L.length :=
    (List.subperm_of_subset hl fun u hu => (hm u).2 (hx u hu)).length_le
  rw [← total_blocks hD n]
  refine (total_mono D 0 (hn.trans hle)).trans (le_trans ?_ hw)
  have := wsum_ones D 0 (l := L.map x) (by
    intro y hy
    obtain ⟨u, hu, rfl⟩ := List.mem_map.1 hy
    exact (hm u).1 hu)
  rwa [List.length_map] at this

/-! ### tables -/

open Manager Spec

section
variable {τ S C : Type} [TrackOps τ S C]

/-- by how much the count of a track exceeds the removal threshold -/
def excess (T : Table τ) (u : Uuid) : ℕ :=
  match T.entry u with
  | some e => e.count - T.removal
  | none => 0

/-- one round: the tracks `K` are associated or started -/
structure Advance (K : List Uuid) (T T' : Table τ) : Prop where
  promo : T'.promo = T.promo
  removal : T'.removal = T.removal
  entry : ∀ u e', T'.entry u = some e' → u ∈ K ∧ e'.count = 1 ∨
    ∃ e, T.entry u = some e ∧ T.removal < e'.count ∧
      (e'.count = e.count - 1 ∨ u ∈ K ∧ e'.count = min (e.count + 1) T.promo)

/-- what holds after every round -/
structure Crowded (D : ℕ) (T : Table τ) : Prop where
  inv : Inv D (max T.promo 1 - T.removal) (excess T)
  young : ∃ K : List Uuid, K.length ≤ D ∧ ∀ u e, T.entry u = some e → e.count ≤ T.removal → u ∈ K

omit [TrackOps τ S C] in
theorem crowded_new (D p r : ℕ) : Crowded D (Table.new p r : Table τ) :=
  ⟨inv_zero D _, [], Nat.zero_le _, fun u e h => by cases h⟩

omit [TrackOps τ S C] in
theorem Crowded.advance {D : ℕ} (hD : 0 < D) {T T' : Table τ} (h : Crowded D T) {K : List Uuid}
    (hK : K.length ≤ D) (ha : Advance K T T') : Crowded D T' := by
  have hb : ∀ u e, T.entry u = some e → e.count - T.removal ≤ max T.promo 1 - T.removal := by
    intro u e he
    have := h.inv.1 u
    simpa only [excess, he] using this
  refine ⟨?_, K, hK, ?_⟩
  · rw [ha.promo, ha.removal]
    refine inv_step hD hK ?_ ?_ ?_ h.inv
    · intro u
      rcases hu : T'.entry u with _ | e'
      · simp only [excess, hu]; omega
      · rcases ha.entry u e' hu with ⟨-, h1⟩ | ⟨e, he, h1, h2⟩
        · simp only [excess, hu, h1]; omega
        · simp only [excess, hu, he, ha.removal]
          rcases h2 with h2 | ⟨-, h2⟩ <;> omega
    · intro u hk
      rcases hu : T'.entry u with _ | e'
      · simp only [excess, hu]; omega
      · rcases ha.entry u e' hu with ⟨h1, -⟩ | ⟨e, he, h1, h2⟩
        · exact absurd h1 hk
        · simp only [excess, hu, he, ha.removal]
          rcases h2 with h2 | ⟨h2, -⟩
          · omega
          · exact absurd h2 hk
    · intro u
      rcases hu : T'.entry u with _ | e'
      · simp only [excess, hu]; omega
      · rcases ha.entry u e' hu with ⟨-, h1⟩ | ⟨e, he, h1, h2⟩
        · simp only [excess, hu, h1, ha.removal]; omega
        · have := hb u e he
          simp only [excess, hu, ha.removal]
          rcases h2 with h2 | ⟨-, h2⟩ <;> omega
  · intro u e' hu hle
    rcases ha.entry u e' hu with ⟨h1, -⟩ | ⟨e, he, h1, h2⟩
    · exact h1
    · rw [ha.removal] at hle
      omega

theorem plain_step {T : Table τ} {op : Op τ S C} (h : PlainCall op) :
    (T.step op).1.promo = T.promo ∧ (T.step op).1.removal = T.removal ∧
      ∀ u e', (T.step op).1.entry u = some e' →
        u ∈ addedUuids [op] ∧ e'.count = 1 ∨ ∃ e, T.entry u = some e ∧ e'.count = e.count := by
  have hmod : ∀ v f, (T.modifyTrack v f).1.promo = T.promo ∧ (T.modifyTrack v f).1.removal = T.removal ∧
      ∀ u e', (T.modifyTrack v f).1.entry u = some e' → ∃ e, T.entry u = some e ∧ e'.count = e.count := by
    intro v f
    unfold Table.modifyTrack
    split
    · exact ⟨rfl, rfl, fun u e' he => ⟨e', he, rfl⟩⟩
    · next e hv =>
      refine ⟨rfl, rfl, fun u e' he => ?_⟩
      simp only at he
      split at he
      · next hu =>
        subst hu
        cases he
        exact ⟨e, hv, rfl⟩
      · exact ⟨e', he, rfl⟩
  cases op with
  | add t =>
    simp only [Table.step]
    split
    · exact ⟨rfl, rfl, fun u e' he => .inr ⟨e', he, rfl⟩⟩
    · refine ⟨rfl, rfl, fun u e' he => ?_⟩
      simp only at he
      split at he
      · next hu =>
        cases he
        exact .inl ⟨by simp [addedUuids, hu], rfl⟩
      · exact .inr ⟨e', he, rfl⟩
  | update a => exact h.elim
  | setPromotion p => exact h.elim
  | setRemoval r => exact h.elim
  | updateTrack u ts s c =>
    obtain ⟨h1, h2, h3⟩ := hmod u (Table.setEstimate ts s c)
    exact ⟨h1, h2, fun u e' he => .inr (h3 u e' he)⟩
  | updateTrackFrom u t =>
    obtain ⟨h1, h2, h3⟩ := hmod u (Table.copyEstimate t)
    exact ⟨h1, h2, fun u e' he => .inr (h3 u e' he)⟩

theorem addedUuids_cons (op : Op τ S C) (ops : List (Op τ S C)) :
    addedUuids (op :: ops) = addedUuids [op] ++ addedUuids ops := by
  cases op <;> rfl

theorem plain_run {T : Table τ} {ops : List (Op τ S C)} (h : ∀ op ∈ ops, PlainCall op) :
    (T.run ops).promo = T.promo ∧ (T.run ops).removal = T.removal ∧
      ∀ u e', (T.run ops).entry u = some e' →
        u ∈ addedUuids ops ∧ e'.count = 1 ∨ ∃ e, T.entry u = some e ∧ e'.count = e.count := by
  induction ops generalizing T with
  | nil => exact ⟨rfl, rfl, fun u e' he => .inr ⟨e', he, rfl⟩⟩
  | cons op ops ih =>
    obtain ⟨h1, h2, h3⟩ := plain_step (T := T) (h op (by simp))
    obtain ⟨g1, g2, g3⟩ := ih (T := (T.step op).1) fun o ho => h o (by simp [ho])
    refine ⟨g1.trans h1, g2.trans h2, fun u e' he => ?_⟩
    rw [addedUuids_cons, List.mem_append]
    rcases g3 u e' he with ⟨hm, hc⟩ | ⟨e, he1, hc⟩
    · exact .inl ⟨.inr hm, hc⟩
    · rcases h3 u e he1 with ⟨hm, hc'⟩ | ⟨e₀, he0, hc'⟩
      · exact .inl ⟨.inl hm, hc.trans hc'⟩
      · exact .inr ⟨e₀, he0, hc.trans hc'⟩

theorem round_advance {D : ℕ} (T : Table τ) {r : Round τ S C} (h : r.AtMost D) :
    Advance (r.seen.keys ++ addedUuids r.calls) T (T.run r.ops) := by
  obtain ⟨h1, h2, h3⟩ := plain_run (T := (T.step (.update r.seen : Op τ S C)).1) h.1
  refine ⟨h1, h2, fun u e' he => ?_⟩
  rcases h3 u e' he with ⟨hm, hc⟩ | ⟨e, he1, hc⟩
  · exact .inl ⟨List.mem_append_right _ hm, hc⟩
  · obtain ⟨e₀, he0, hup⟩ := Option.bind_eq_some_iff.1 he1
    simp only [Table.updateEntry] at hup
    split at hup
    · cases hup
    · next hr =>
      cases hup
      simp only at hc
      refine .inr ⟨e₀, he0, by omega, ?_⟩
      rw [hc]
      unfold Table.newCount
      by_cases hu : u ∈ r.seen.keys
      · exact .inr ⟨List.mem_append_left _ hu, by simp [hu]⟩
      · exact .inl (by simp [hu])

theorem run_append (l l' : List (Op τ S C)) (T : Table τ) : T.run (l ++ l') = (T.run l).run l' := by
  induction l generalizing T with
  | nil => rfl
  | cons o l ih => exact ih _

theorem rounds_crowded {D : ℕ} (hD : 0 < D) {T : Table τ} (h : Crowded D T) {rs : List (Round τ S C)}
    (hr : ∀ r ∈ rs, r.AtMost D) : Crowded D (T.run (rs.flatMap Round.ops)) := by
  induction rs generalizing T with
  | nil => exact h
  | cons r rs ih =>
    rw [List.flatMap_cons, run_append]
    have h1 := hr r (by simp)
    refine ih (h.advance hD ?_ (round_advance T h1)) fun r' hr' => hr r' (by simp [hr'])
    rw [List.length_append]
    exact h1.2

theorem rounds_thresholds {D : ℕ} (T : Table τ) {rs : List (Round τ S C)} (hr : ∀ r ∈ rs, r.AtMost D) :
    (T.run (rs.flatMap Round.ops)).promo = T.promo ∧ (T.run (rs.flatMap Round.ops)).removal = T.removal := by
  induction rs generalizing T with
  | nil => exact ⟨rfl, rfl⟩
  | cons r rs ih =>
    rw [List.flatMap_cons, run_append]
    have h1 := round_advance T (hr r (by simp))
    obtain ⟨h2, h3⟩ := ih (T.run r.ops) fun r' hr' => hr r' (by simp [hr'])
    exact ⟨h2.trans h1.promo, h3.trans h1.removal⟩

theorem round_updates {D : ℕ} {rs : List (Round τ S C)} (hr : ∀ r ∈ rs, r.AtMost D) :
    numUpdates (rs.flatMap Round.ops) = rs.length := by
  have happ : ∀ l l' : List (Op τ S C), numUpdates (l ++ l') = numUpdates l + numUpdates l' := by
    intro l l'
    induction l with
    | nil => simp [numUpdates]
    | cons o l ih => simp only [List.cons_append, numUpdates, ih]; omega
  have hpl : ∀ l : List (Op τ S C), (∀ op ∈ l, PlainCall op) → numUpdates l = 0 := by
    intro l hl
    induction l with
    | nil => rfl
    | cons o l ih =>
      have h1 := hl o (by simp)
      simp only [numUpdates, ih fun o ho => hl o (by simp [ho])]
      cases o <;> first | rfl | exact h1.elim
  induction rs with
  | nil => rfl
  | cons r rs ih =>
    rw [List.flatMap_cons, happ, ih fun r' hr' => hr r' (by simp [hr']), List.length_cons]
    simp only [Round.ops, numUpdates, hpl r.calls (hr r (by simp)).1, Op.updates]
    omega

/-! ### numbers of tracks -/

theorem pow_blocks {D B n : ℕ} (hD : 0 < D) (h : D * 2 ^ n ≤ (2 * D - 1) * B) : n ≤ Nat.clog 2 B := by
  by_contra hlt
  have hlt : Nat.clog 2 B + 1 ≤ n := by omega
  have h1 : B ≤ 2 ^ Nat.clog 2 B := Nat.le_pow_clog (by norm_num) B
  have h2 : 2 ^ (Nat.clog 2 B + 1) ≤ 2 ^ n := Nat.pow_le_pow_right (by norm_num) hlt
  rw [pow_succ] at h2
  have h3 : D * (2 * B) ≤ D * 2 ^ n := Nat.mul_le_mul_left _ (by omega)
  have h4 : D * (2 * B) = 2 * D * B := by ring
  have h5 : (2 * D - 1) * B + B = 2 * D * B := by
    rw [← Nat.succ_mul]
    congr 1
    omega
  have h6 : B = 0 := by omega
  subst h6
  have h7 : 0 < 2 ^ n := Nat.two_pow_pos n
  have h8 := Nat.mul_pos hD h7
  omega

theorem Crowded.above {D : ℕ} (hD : 0 < D) {n : ℕ} (hn : n + 1 < 2 ^ 64) {m : Manager τ} {T : Table τ}
    (hT : Rel n m T) (h : Crowded D T) {k : ℕ} (hk : (k + 1) * D ≤ numAbove m) :
    D * 2 ^ k ≤ (2 * D - 1) * (max m.promo.toNat 1 - m.removal.toNat) := by
  rw [hT.promo, hT.removal]
  unfold numAbove at hk
  refine inv_length hD h.inv (l := (m.getAllTracks.filter fun t =>
    decide (m.removal.toNat < m.counter (TrackOps.uuid t))).map TrackOps.uuid)
    (hT.nodup.sublist (List.filter_sublist.map _)) ?_ (by rwa [List.length_map])
  intro u hu
  obtain ⟨t, ht, rfl⟩ := List.mem_map.1 hu
  obtain ⟨ht, hc⟩ := List.mem_filter.1 ht
  obtain ⟨e, he, -⟩ := hT.hasTrack.1 (⟨ht, rfl⟩ : m.HasTrack (TrackOps.uuid t) t)
  have hc := of_decide_eq_true hc
  rw [hT.counter_some hn he, hT.removal] at hc
  simp only [excess, he]
  omega

theorem Crowded.all {D : ℕ} {n : ℕ} (hn : n + 1 < 2 ^ 64) {m : Manager τ} {T : Table τ}
    (hT : Rel n m T) (h : Crowded D T) :
    numTracks m ≤ numAbove m + D ∧ (m.removal.toNat = 0 → numTracks m = numAbove m) := by
  obtain ⟨K, hK, hy⟩ := h.young
  have hcnt : ∀ t ∈ m.getAllTracks, ∃ e, T.entry (TrackOps.uuid t) = some e ∧
      m.counter (TrackOps.uuid t) = e.count := by
    intro t ht
    obtain ⟨e, he, -⟩ := hT.hasTrack.1 (⟨ht, rfl⟩ : m.HasTrack (TrackOps.uuid t) t)
    exact ⟨e, he, hT.counter_some hn he⟩
  constructor
  · have h1 := List.length_eq_countP_add_countP
      (fun t => decide (m.removal.toNat < m.counter (TrackOps.uuid t))) (l := m.getAllTracks)
    rw [List.countP_eq_length_filter, List.countP_eq_length_filter] at h1
    unfold numTracks numAbove
    rw [h1]
    refine Nat.add_le_add (le_of_eq ?_) (le_trans ?_ hK)
    · congr
    · rw [← List.length_map (f := TrackOps.uuid)]
      refine (List.subperm_of_subset (hT.nodup.sublist (List.filter_sublist.map _)) ?_).length_le
      intro u hu
      obtain ⟨t, ht, rfl⟩ := List.mem_map.1 hu
      obtain ⟨ht, hc⟩ := List.mem_filter.1 ht
      obtain ⟨e, he, hce⟩ := hcnt t ht
      refine hy _ e he ?_
      rw [hce, hT.removal] at hc
      simpa using hc
  · intro h0
    unfold numTracks numAbove
    rw [List.filter_eq_self.2]
    intro t ht
    obtain ⟨e, he, hce⟩ := hcnt t ht
    have := (hT.bound _ e he).1
    rw [hce, h0]
    exact decide_eq_true (by omega)

end

/-! ### periods -/

section
variable {S₁ C₁ S₂ C₂ : Type}

/-- a detection is associated with one track, or starts one -/
theorem period_advance {n : ℕ} (hn : n + 3 < 2 ^ 64) {m m' : Manager (Obj2 S₁ C₁ S₂ C₂)}
    {T : Table (Obj2 S₁ C₁ S₂ C₂)} (h : Rel n m T) {solve : Solver} (hs : IsPermSolver solve)
    {metric : Obj2 S₁ C₁ S₂ C₂ → Obj2 S₁ C₁ S₂ C₂ → Option FP} {gate : FP → Bool}
    {visitor : Obj2 S₁ C₁ S₂ C₂ → Obj2 S₁ C₁ S₂ C₂ → Outcome (Obj2 S₁ C₁ S₂ C₂)}
    (hv : ∀ t d f, visitor t d = .ok f → SameObject t f)
    {align : Obj2 S₁ C₁ S₂ C₂ → Outcome (Obj2 S₁ C₁ S₂ C₂)}
    (hal : ∀ o o', align o = .ok o' → SameObject o o') {ds : List (Obj2 S₁ C₁ S₂ C₂)}
    (hds : (ds.map TrackOps.uuid).Nodup) (hbig : m.getAllTracks.length * ds.length < 2 ^ 64)
    {a : AssociationMap}
    (hp : period solve metric gate visitor makeTrack2 align ds m = (m', .ok a)) :
    ∃ T' K, Rel (n + 1) m' T' ∧ K.length = ds.length ∧ Advance K T T' := by
  classical
  obtain ⟨T', hT', hpr, hre, hst, hnot, hin⟩ := period_rel hn h hs hv hal hds hbig hp
  have hinj : ∀ t t' d, a.find? t = some [d] → a.find? t' = some [d] → t = t' := by
    obtain ⟨ds', ts', m₁, hd, ht, hc, -⟩ := period_ok.1 hp
    obtain ⟨ha, -⟩ := cycleOn_ok hc
    refine (Props.C19_one_to_one hs ?_ ha).2.1
    refine lt_of_le_of_lt ((prune_length_le _ _).trans (score_length_le _ _ _)) ?_
    rw [← ht.length_eq, ← hd.length_eq]
    exact hbig
  refine ⟨T', ds.map fun d => if hx : ∃ u, a.find? u = some [TrackOps.uuid d] then hx.choose
    else TrackOps.uuid d, hT', List.length_map _, hpr, hre, fun u e' he => ?_⟩
  by_cases hsu : Starts a ds u
  · obtain ⟨d, hd, rfl, hda⟩ := hsu
    obtain ⟨y, -, hy⟩ := hst d hd hda
    rw [hy] at he
    cases he
    refine .inl ⟨List.mem_map.2 ⟨d, hd, ?_⟩, rfl⟩
    rw [dif_neg]
    rintro ⟨v, hv⟩
    exact hda v _ hv (by simp)
  · have hns : ∀ d ∈ ds, TrackOps.uuid d = u → ¬ Unassociated a d :=
      fun d hd e ha => hsu ⟨d, hd, e, ha⟩
    right
    by_cases hu : u ∈ a.keys
    · obtain ⟨e₀, x, d, hd, y, f, he₀, hx, hy, hl, hvf, hT'⟩ := hin u hns hu
      rw [hT'] at he
      simp only [Table.updateEntry] at he
      split at he
      · cases he
      · next hr =>
        cases he
        refine ⟨e₀, he₀, Nat.lt_of_not_le hr, .inr ⟨List.mem_map.2 ⟨d, hd, ?_⟩, rfl⟩⟩
        have hx : ∃ u, a.find? u = some [TrackOps.uuid d] := ⟨u, hl⟩
        rw [dif_pos hx]
        exact hinj _ _ _ hx.choose_spec hl
    · rw [hnot u hns hu] at he
      obtain ⟨e₀, he₀, hup⟩ := Option.bind_eq_some_iff.1 he
      simp only [Table.updateEntry] at hup
      split at hup
      · cases hup
      · next hr =>
        cases hup
        exact ⟨e₀, he₀, Nat.lt_of_not_le hr, .inl rfl⟩

theorem history_crowded {D : ℕ} (hD : 0 < D) {n : ℕ} {m m' : Manager (Obj2 S₁ C₁ S₂ C₂)}
    {T : Table (Obj2 S₁ C₁ S₂ C₂)} (hT : Rel 0 m T) (h : Crowded D T)
    {visitor : Obj2 S₁ C₁ S₂ C₂ → Obj2 S₁ C₁ S₂ C₂ → Outcome (Obj2 S₁ C₁ S₂ C₂)}
    (hv : ∀ t d f, visitor t d = .ok f → SameObject t f)
    {align : ℝ → Obj2 S₁ C₁ S₂ C₂ → Outcome (Obj2 S₁ C₁ S₂ C₂)}
    (hal : ∀ time o o', align time o = .ok o' → SameObject o o')
    (hp : CrowdHistory visitor makeTrack2 align D m n m') (hn : n + 3 < 2 ^ 64) :
    ∃ T', Rel n m' T' ∧ T'.promo = T.promo ∧ T'.removal = T.removal ∧ Crowded D T' := by
  induction hp with
  | start => exact ⟨T, hT, rfl, rfl, h⟩
  | @round n m₁ m₂ _ r hr os hs ih =>
    obtain ⟨T₁, h1, h2, h3, h4⟩ := ih (by omega)
    have hu := round_updates (rs := [r]) (D := D) (by simpa using hr)
    rw [List.flatMap_singleton, List.length_singleton] at hu
    have hk := (rel_runs h1 hs (by rw [hu]; omega)).1
    rw [hu] at hk
    have ha := round_advance T₁ hr
    refine ⟨_, hk, ha.promo.trans h2, ha.removal.trans h3, h4.advance hD ?_ ha⟩
    rw [List.length_append]
    exact hr.2
  | @period n m₁ m₂ _ solve hs metric gate time ds hds hle hbig a hp ih =>
    obtain ⟨T₁, h1, h2, h3, h4⟩ := ih (by omega)
    obtain ⟨T₂, K, g1, g2, g3⟩ := period_advance (by omega) h1 hs hv (hal time) hds hbig hp
    exact ⟨T₂, g1, g3.promo.trans h2, g3.removal.trans h3, h4.advance hD (by rw [g2]; exact hle) g3⟩

end

/-! ### a history with as many tracks as possible -/

section
variable {τ S C : Type} [TrackOps τ S C]

/-- `j` old tracks with count `a` each, and one with count `h` unless `h = 0` -/
structure Staged (P : ℕ) (U : ℕ → Uuid) (j a h : ℕ) (T : Table τ) : Prop where
  promo : T.promo = P
  removal : T.removal = 0
  old : ∀ i < j, ∃ e, T.entry (U i) = some e ∧ e.count = a
  newest : if h = 0 then T.entry (U j) = none else ∃ e, T.entry (U j) = some e ∧ e.count = h
  rest : ∀ u, (∀ i ≤ j, u ≠ U i) → T.entry u = none

omit [TrackOps τ S C] in
theorem Staged.update {P : ℕ} {U : ℕ → Uuid} (hU : Function.Injective U) {j a h : ℕ} {T : Table τ}
    (hT : Staged P U j a h T) (ha : 2 ≤ a ∨ j = 0) [TrackOps τ S C] (m : AssociationMap)
    (hm : if h = 0 then m.keys = [] else m.keys = [U j]) (hh : h + 1 ≤ P) :
    Staged P U j (a - 1) (if h = 0 then 0 else h + 1) (T.step (.update m : Op τ S C)).1 where
  promo := hT.promo
  removal := hT.removal
  old := by
    intro i hi
    obtain ⟨e, he, hc⟩ := hT.old i hi
    have hk : U i ∉ m.keys := by
      split at hm
      · rw [hm]; simp
      · rw [hm, List.mem_singleton]
        intro h
        have := hU h
        omega
    simp only [Table.step, he, Option.bind_some, Table.updateEntry, hk, decide_false, Table.newCount,
      Bool.false_eq_true, if_false, hT.removal, hc]
    rw [if_neg (by omega)]
    exact ⟨_, rfl, rfl⟩
  newest := by
    have hn := hT.newest
    by_cases h0 : h = 0
    · rw [if_pos h0] at hn
      simp only [h0, if_true, Table.step, hn, Option.bind_none]
    · rw [if_neg h0] at hn hm
      obtain ⟨e, he, hc⟩ := hn
      rw [if_neg h0, if_neg (by omega)]
      have hk : U j ∈ m.keys := by rw [hm]; simp
      simp only [Table.step, he, Option.bind_some, Table.updateEntry, hk, decide_true, Table.newCount,
        if_true, hT.removal, hc, hT.promo]
      rw [if_neg (by omega)]
      exact ⟨_, rfl, by simp only; omega⟩
  rest := by
    intro u hu
    simp only [Table.step, hT.rest u hu, Option.bind_none]

/-- a round that starts the newest track or associates it -/
def grow (mk : ℕ → τ) (j h : ℕ) : Round τ S C :=
  if h = 0 then ⟨.empty, [.add (mk j)]⟩ else ⟨SMap.empty.set (TrackOps.uuid (mk j)) [TrackOps.uuid (mk j)], []⟩

theorem grow_atMost (mk : ℕ → τ) (j h : ℕ) : (grow mk j h : Round τ S C).AtMost 1 := by
  unfold grow
  split
  · exact ⟨by simp [PlainCall], by simp [SMap.keys, SMap.empty, addedUuids]⟩
  · exact ⟨by simp, by simp [SMap.keys, SMap.empty, SMap.set, AList.set, addedUuids]⟩

theorem Staged.grow {P : ℕ} {mk : ℕ → τ} (hU : Function.Injective fun i => TrackOps.uuid (mk i))
    {j a h : ℕ} {T : Table τ} (hT : Staged P (fun i => TrackOps.uuid (mk i)) j a h T) (ha : 2 ≤ a ∨ j = 0)
    (hh : h + 1 ≤ P) :
    Staged P (fun i => TrackOps.uuid (mk i)) j (a - 1) (h + 1)
      (T.run (Crowd.grow mk j h : Round τ S C).ops) := by
  unfold Crowd.grow
  by_cases h0 : h = 0
  · rw [if_pos h0]
    have h1 := hT.update hU ha (S := S) (C := C) .empty (by rw [if_pos h0]; rfl) hh
    rw [if_pos h0] at h1
    subst h0
    simp only [Round.ops, Table.run]
    generalize (T.step (.update .empty : Op τ S C)).1 = T₁ at h1
    have hn := h1.newest
    rw [if_pos rfl] at hn
    simp only [Table.step, hn]
    refine ⟨h1.promo, h1.removal, ?_, ?_, ?_⟩
    · intro i hi
      obtain ⟨e, he, hc⟩ := h1.old i hi
      refine ⟨e, ?_, hc⟩
      simp only
      rw [if_neg]
      · exact he
      · intro h
        have := hU h
        omega
    · rw [if_neg (by omega)]
      exact ⟨_, if_pos rfl, rfl⟩
    · intro u hu
      simp only
      rw [if_neg (hu j le_rfl)]
      exact h1.rest u hu
  · rw [if_neg h0]
    have h1 := hT.update hU ha (S := S) (C := C)
      (SMap.empty.set (TrackOps.uuid (mk j)) [TrackOps.uuid (mk j)])
      (by rw [if_neg h0]; simp [SMap.keys, SMap.empty, SMap.set, AList.set]) hh
    rwa [if_neg h0] at h1

/-- one track after the other gets half of what is left -/
theorem staged_phase {P : ℕ} {mk : ℕ → τ} (hU : Function.Injective fun i => TrackOps.uuid (mk i))
    {j a : ℕ} {T : Table τ} (hT : Staged P (fun i => TrackOps.uuid (mk i)) j a 0 T) (k : ℕ) (hk : k ≤ P)
    (hka : k < a ∨ j = 0) :
    Staged P (fun i => TrackOps.uuid (mk i)) j (a - k) k
      (T.run (((List.range k).map (Crowd.grow (S := S) (C := C) mk j)).flatMap Round.ops)) := by
  induction k with
  | zero => exact hT
  | succ k ih =>
    rw [List.range_succ, List.map_append, List.flatMap_append, run_append, List.map_singleton,
      List.flatMap_singleton]
    have := (ih (by omega) (by omega)).grow (S := S) (C := C) hU (by omega) hk
    rwa [Nat.sub_sub] at this

theorem staged_all (P : ℕ) (mk : ℕ → τ) (hU : Function.Injective fun i => TrackOps.uuid (mk i))
    {N : ℕ} (hP : 2 ^ N ≤ P) (j : ℕ) (hj : j ≤ N + 1) :
    ∃ rs : List (Round τ S C), (∀ r ∈ rs, r.AtMost 1) ∧ rs.length + 2 ^ (N + 1 - j) = 2 ^ (N + 1) ∧
      Staged P (fun i => TrackOps.uuid (mk i)) j (2 ^ (N + 1 - j)) 0 ((Table.new P 0).run (rs.flatMap Round.ops)) := by
  induction j with
  | zero =>
    refine ⟨[], by simp, by simp, rfl, rfl, ?_, ?_, ?_⟩
    · intro i hi
      omega
    · rfl
    · intro u _
      rfl
  | succ j ih =>
    obtain ⟨rs, h1, h2, h3⟩ := ih (by omega)
    have hd : 2 ^ (N + 1 - j) = 2 * 2 ^ (N + 1 - (j + 1)) := by
      rw [← pow_succ']
      congr 1
      omega
    have hpos : 0 < 2 ^ (N + 1 - (j + 1)) := Nat.two_pow_pos _
    have hle : 2 ^ (N + 1 - (j + 1)) ≤ 2 ^ N := Nat.pow_le_pow_right (by norm_num) (by omega)
    have h4 := staged_phase (S := S) (C := C) hU h3 (2 ^ (N + 1 - (j + 1))) (by omega) (by omega)
    rw [← run_append, ← List.flatMap_append] at h4
    refine ⟨rs ++ (List.range (2 ^ (N + 1 - (j + 1)))).map (Crowd.grow mk j), ?_, ?_, ?_⟩
    rotate_left 2
    · have he : 2 ^ (N + 1 - j) - 2 ^ (N + 1 - (j + 1)) = 2 ^ (N + 1 - (j + 1)) := by omega
      rw [he] at h4
      refine ⟨h4.promo, h4.removal, ?_, ?_, ?_⟩
      · intro i hi
        rcases Nat.lt_or_ge i j with hlt | hge
        · exact h4.old i hlt
        · have hij : i = j := by omega
          subst hij
          have := h4.newest
          rwa [if_neg (by omega)] at this
      · rw [if_pos rfl]
        refine h4.rest _ ?_
        intro i hi h
        have := hU h
        omega
      · intro u hu
        exact h4.rest u fun i hi => hu i (by omega)
    · intro r hr
      rcases List.mem_append.1 hr with hr | hr
      · exact h1 r hr
      · obtain ⟨i, -, rfl⟩ := List.mem_map.1 hr
        exact grow_atMost mk j i
    · rw [List.length_append, List.length_map, List.length_range]
      omega

theorem staged_numTracks {P : ℕ} {U : ℕ → Uuid} (hU : Function.Injective U) {j a n : ℕ} {T : Table τ}
    (hT : Staged P U j a 0 T) {m : Manager τ} (h : Rel n m T) : numTracks m = j := by
  have hp : (m.getAllTracks.map TrackOps.uuid).Perm ((List.range j).map U) := by
    refine (List.perm_ext_iff_of_nodup h.nodup (List.nodup_range.map hU)).2 fun u => ?_
    rw [List.mem_map, List.mem_map]
    have hx := h.managed (u := u)
    unfold Managed HasTrack at hx
    rw [hx]
    constructor
    · rintro ⟨e, he⟩
      by_contra hc
      have hnone : T.entry u = none := by
        by_cases hj : u = U j
        · have := hT.newest
          rw [if_pos rfl] at this
          rw [hj]; exact this
        · refine hT.rest u fun i hi hui => ?_
          rcases Nat.lt_or_ge i j with hlt | hge
          · exact hc ⟨i, List.mem_range.2 hlt, hui.symm⟩
          · exact hj (by rw [hui]; congr 1; omega)
      rw [hnone] at he
      cases he
    · rintro ⟨i, hi, rfl⟩
      obtain ⟨e, he, -⟩ := hT.old i (List.mem_range.1 hi)
      exact ⟨e, he⟩
  have := hp.length_eq
  rwa [List.length_map, List.length_map, List.length_range] at this

end

end Mot.Crowd
