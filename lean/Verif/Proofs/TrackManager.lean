import Verif.Spec.TrackTable
import Verif.Proofs.Maps
/-! # Simulation between the track manager and its specification -/

namespace Mot

/-- The setters touch neither the UUID nor the semantic class, and a setter that fails
leaves the object as it was. -/
class LawfulTrackOps (τ : Type) {S C : outParam Type} [TrackOps τ S C] : Prop where
  uuid_setTimestamp : ∀ (t : τ) ts, TrackOps.uuid (TrackOps.setTimestamp t ts) = TrackOps.uuid t
  uuid_setState : ∀ (t : τ) s, TrackOps.uuid (TrackOps.setState t s).1 = TrackOps.uuid t
  uuid_setCovariance : ∀ (t : τ) c, TrackOps.uuid (TrackOps.setCovariance t c).1 = TrackOps.uuid t
  uuid_copyState : ∀ (t s : τ), TrackOps.uuid (TrackOps.copyState t s).1 = TrackOps.uuid t
  uuid_copyCovariance : ∀ (t s : τ), TrackOps.uuid (TrackOps.copyCovariance t s).1 = TrackOps.uuid t
  cls_setTimestamp : ∀ (t : τ) ts,
    TrackOps.semanticClass (TrackOps.setTimestamp t ts) = TrackOps.semanticClass t
  cls_setState : ∀ (t : τ) s,
    TrackOps.semanticClass (TrackOps.setState t s).1 = TrackOps.semanticClass t
  cls_setCovariance : ∀ (t : τ) c,
    TrackOps.semanticClass (TrackOps.setCovariance t c).1 = TrackOps.semanticClass t
  cls_copyState : ∀ (t s : τ),
    TrackOps.semanticClass (TrackOps.copyState t s).1 = TrackOps.semanticClass t
  cls_copyCovariance : ∀ (t s : τ),
    TrackOps.semanticClass (TrackOps.copyCovariance t s).1 = TrackOps.semanticClass t

instance lawfulDynObj {S C : Type} : LawfulTrackOps (DynObj S C) := by
  constructor <;> intros <;> rfl

instance lawfulObj2 {S₁ C₁ S₂ C₂ : Type} : LawfulTrackOps (Obj2 S₁ C₁ S₂ C₂) := by
  constructor
  · rintro (t | t) ts <;> rfl
  · rintro (t | t) (s | s) <;> rfl
  · rintro (t | t) (s | s) <;> rfl
  · rintro (t | t) (s | s) <;> rfl
  · rintro (t | t) (s | s) <;> rfl
  · rintro (t | t) ts <;> rfl
  · rintro (t | t) (s | s) <;> rfl
  · rintro (t | t) (s | s) <;> rfl
  · rintro (t | t) (s | s) <;> rfl
  · rintro (t | t) (s | s) <;> rfl

namespace Manager
variable {τ S C : Type} [TrackOps τ S C]

/-- status as stored by the manager -/
def statusOf (b : Bool) : TrackStatus := if b then .confirmed else .tentative

/-- The manager represents the table; `n` bounds the number of updates so
far. -/
structure Rel (n : ℕ) (m : Manager τ) (T : Spec.Table τ) : Prop where
  promo : m.promo.toNat = T.promo
  removal : m.removal.toNat = T.removal
  tracks : ∀ u, m.tracks.find? u = (T.entry u).map (·.track)
  statuses : ∀ u, m.statuses.find? u = (T.entry u).map (fun e => statusOf e.confirmed)
  occ : ∀ u, m.occ.find? u = (T.entry u).map (fun e => BitVec.ofNat 64 e.count)
  bound : ∀ u e, T.entry u = some e → 1 ≤ e.count ∧ e.count ≤ n + 1
  uuid : ∀ u e, T.entry u = some e → TrackOps.uuid e.track = u
  tent : ∀ u e, T.entry u = some e → e.confirmed = false → e.count < T.promo ∨ e.count = 1

theorem Rel.mono {n n' : ℕ} {m : Manager τ} {T : Spec.Table τ} (h : Rel n m T) (hn : n ≤ n') :
    Rel n' m T :=
  { h with bound := fun u e he => ⟨(h.bound u e he).1, by have := (h.bound u e he).2; omega⟩ }

theorem rel_new (p r : BitVec 64) :
    Rel 0 (Manager.new p r : Manager τ) (Spec.Table.new p.toNat r.toNat) where
  promo := rfl
  removal := rfl
  tracks _ := rfl
  statuses _ := rfl
  occ _ := rfl
  bound u e h := by simp [Spec.Table.new] at h
  uuid u e h := by simp [Spec.Table.new] at h
  tent u e h := by simp [Spec.Table.new] at h

theorem Rel.reordered {n : ℕ} {m m' : Manager τ} {T : Spec.Table τ} (h : Rel n m T)
    (hr : m.Reordered m') : Rel n m' T :=
  { h with
    promo := by rw [hr.promo]; exact h.promo
    removal := by rw [hr.removal]; exact h.removal
    tracks := fun u => by
      rw [← h.tracks u]; exact (AList.find?_perm m.tracks.nodup hr.tracks u).symm
    statuses := fun u => by
      rw [← h.statuses u]; exact (AList.find?_perm m.statuses.nodup hr.statuses u).symm
    occ := fun u => by
      rw [← h.occ u]; exact (AList.find?_perm m.occ.nodup hr.occ u).symm }

/-! ### update_track_lists -/

/-- Effect of the second loop on lookups. -/
theorem sweep_spec (l : List (Uuid × BitVec 64)) (hl : (l.map (·.1)).Nodup) (m : Manager τ)
    (hst : ∀ u ∈ l.map (·.1), (m.statuses.find? u).isSome) :
    ∃ m', Act.forEach sweepEntry l m = (m', .ok ()) ∧ m'.promo = m.promo ∧
      m'.removal = m.removal ∧
      (∀ u, m'.tracks.find? u = match AList.find? u l with
        | some c => if c ≤ m.removal then none else m.tracks.find? u
        | none => m.tracks.find? u) ∧
      (∀ u, m'.occ.find? u = match AList.find? u l with
        | some c => if c ≤ m.removal then none else m.occ.find? u
        | none => m.occ.find? u) ∧
      (∀ u, m'.statuses.find? u = match AList.find? u l with
        | some c => if c ≤ m.removal then none
                    else if c ≥ m.promo then some .confirmed else m.statuses.find? u
        | none => m.statuses.find? u) := by
  induction l generalizing m with
  | nil => exact ⟨m, rfl, rfl, rfl, fun _ => rfl, fun _ => rfl, fun _ => rfl⟩
  | cons a l ih =>
    obtain ⟨k, c⟩ := a
    rw [List.map_cons, List.nodup_cons] at hl
    have hkl : AList.find? k l = none := AList.find?_eq_none.2 hl.1
    by_cases h1 : c ≤ m.removal
    · -- erased
      have hst' : ∀ u ∈ l.map (·.1), ((m.statuses.erase k).find? u).isSome := by
        intro u hu
        have hne : u ≠ k := by rintro rfl; exact hl.1 hu
        rw [UMap.find?_erase, if_neg hne]
        exact hst u (List.mem_cons_of_mem _ hu)
      obtain ⟨m', e1, e2, e3, e4, e5, e6⟩ := ih hl.2
        { m with tracks := m.tracks.erase k, statuses := m.statuses.erase k,
                 occ := m.occ.erase k } hst'
      refine ⟨m', ?_, e2, e3, ?_, ?_, ?_⟩
      · simp only [Act.forEach, sweepEntry, h1, if_true]; exact e1
      · intro u
        rw [e4 u]
        by_cases hk : k = u
        · subst hk; simp [AList.find?, hkl, h1, UMap.find?_erase]
        · simp [AList.find?, hk, UMap.find?_erase, Ne.symm hk]
      · intro u
        rw [e5 u]
        by_cases hk : k = u
        · subst hk; simp [AList.find?, hkl, h1, UMap.find?_erase]
        · simp [AList.find?, hk, UMap.find?_erase, Ne.symm hk]
      · intro u
        rw [e6 u]
        by_cases hk : k = u
        · subst hk; simp [AList.find?, hkl, h1, UMap.find?_erase]
        · simp [AList.find?, hk, UMap.find?_erase, Ne.symm hk]
    · by_cases h2 : c ≥ m.promo
      · have hks := hst k (by simp)
        obtain ⟨s, hs⟩ := Option.isSome_iff_exists.1 hks
        have hst' : ∀ u ∈ l.map (·.1), ((m.statuses.replace k .confirmed).find? u).isSome := by
          intro u hu
          have hne : u ≠ k := by rintro rfl; exact hl.1 hu
          rw [UMap.find?_replace, if_neg hne]
          exact hst u (List.mem_cons_of_mem _ hu)
        obtain ⟨m', e1, e2, e3, e4, e5, e6⟩ := ih hl.2
          { m with statuses := m.statuses.replace k .confirmed } hst'
        refine ⟨m', ?_, e2, e3, ?_, ?_, ?_⟩
        · simp only [Act.forEach, sweepEntry, h1, h2, if_true, if_false, hs]; exact e1
        · intro u
          rw [e4 u]
          by_cases hk : k = u
          · subst hk; simp [AList.find?, hkl, h1]
          · simp [AList.find?, hk]
        · intro u
          rw [e5 u]
          by_cases hk : k = u
          · subst hk; simp [AList.find?, hkl, h1]
          · simp [AList.find?, hk]
        · intro u
          rw [e6 u]
          by_cases hk : k = u
          · subst hk
            simp only [hkl, UMap.find?_replace, AList.find?, if_true, h1, if_false, h2, hs]
            rfl
          · simp [AList.find?, hk, UMap.find?_replace, Ne.symm hk]
      · obtain ⟨m', e1, e2, e3, e4, e5, e6⟩ := ih hl.2 m
          (fun u hu => hst u (List.mem_cons_of_mem _ hu))
        refine ⟨m', ?_, e2, e3, ?_, ?_, ?_⟩
        · simp only [Act.forEach, sweepEntry, h1, h2, if_false]; exact e1
        · intro u
          rw [e4 u]
          by_cases hk : k = u
          · subst hk; simp [AList.find?, hkl, h1]
          · simp [AList.find?, hk]
        · intro u
          rw [e5 u]
          by_cases hk : k = u
          · subst hk; simp [AList.find?, hkl, h1]
          · simp [AList.find?, hk]
        · intro u
          rw [e6 u]
          by_cases hk : k = u
          · subst hk; simp only [hkl, AList.find?, if_true, h1, if_false, h2]
          · simp [AList.find?, hk]

theorem toNat_newCount {promo : BitVec 64} {b : Bool} {c : ℕ} (h1 : 1 ≤ c) (h2 : c + 1 < 2 ^ 64) :
    (if b then stdMin (BitVec.ofNat 64 c + 1) promo else BitVec.ofNat 64 c - 1)
      = BitVec.ofNat 64 (Spec.Table.newCount promo.toNat b c) := by
  have hp := promo.isLt
  apply BitVec.eq_of_toNat_eq
  cases b
  · simp only [Spec.Table.newCount, Bool.false_eq_true, if_false]
    rw [BitVec.toNat_sub, BitVec.toNat_ofNat, BitVec.toNat_ofNat]
    have : (1 : BitVec 64).toNat = 1 := rfl
    rw [this]; omega
  · simp only [Spec.Table.newCount, if_true, stdMin]
    have e : (BitVec.ofNat 64 c + 1).toNat = c + 1 := by
      rw [BitVec.toNat_add, BitVec.toNat_ofNat]
      have : (1 : BitVec 64).toNat = 1 := rfl
      rw [this]; omega
    split
    · rename_i h
      rw [BitVec.lt_def, e] at h
      rw [BitVec.toNat_ofNat, Nat.min_eq_right (by omega), Nat.mod_eq_of_lt hp]
    · rename_i h
      rw [BitVec.lt_def, e] at h
      rw [e, BitVec.toNat_ofNat, Nat.min_eq_left (by omega), Nat.mod_eq_of_lt h2]

theorem newCount_lt {promo : ℕ} {b : Bool} {c : ℕ} (hc : c + 1 < 2 ^ 64) :
    Spec.Table.newCount promo b c < 2 ^ 64 := by
  unfold Spec.Table.newCount; split <;> omega

theorem rel_update {n : ℕ} {m : Manager τ} {T : Spec.Table τ} (h : Rel n m T)
    (hn : n + 2 < 2 ^ 64) (a : AssociationMap) :
    Rel (n + 1) (updateTrackLists a m).1 (Spec.Table.step (.update a : Op τ S C) T).1 ∧
      (updateTrackLists a m).2 = .ok () := by
  -- lookups after the first loop
  have hocc : ∀ u, (m.countAssociations a).occ.find? u = (T.entry u).map (fun e =>
      BitVec.ofNat 64 (Spec.Table.newCount T.promo (decide (u ∈ a.keys)) e.count)) := by
    intro u
    simp only [countAssociations, UMap.find?_mapVals, h.occ u]
    cases hu : T.entry u with
    | none => rfl
    | some e =>
      have hb := h.bound u e hu
      simp only [Option.map_some]
      congr 1
      rw [← h.promo, ← toNat_newCount (promo := m.promo) hb.1 (by omega)]
      by_cases hk : u ∈ a.keys
      · have h0 : a.count u ≠ 0 := fun h0 => SMap.count_eq_zero.1 h0 hk
        simp only [hk, decide_true, if_true, h0, if_false]
      · have h0 : a.count u = 0 := SMap.count_eq_zero.2 hk
        simp only [hk, decide_false, if_true, h0, if_false, Bool.false_eq_true]
  have hst : ∀ u ∈ (m.countAssociations a).occ.entries.map (·.1),
      ((m.countAssociations a).statuses.find? u).isSome := by
    intro u hu
    have := AList.find?_isSome.2 hu
    have h' : ((m.countAssociations a).occ.find? u).isSome := this
    rw [hocc u] at h'
    show (m.statuses.find? u).isSome
    rw [h.statuses u]
    simpa using h'
  obtain ⟨m', e1, e2, e3, e4, e5, e6⟩ :=
    sweep_spec _ (m.countAssociations a).occ.nodup (m.countAssociations a) hst
  have e0 : updateTrackLists a m = (m', .ok ()) := e1
  rw [e0]
  refine ⟨?_, rfl⟩
  have key : ∀ u, AList.find? u (m.countAssociations a).occ.entries = (T.entry u).map (fun e =>
      BitVec.ofNat 64 (Spec.Table.newCount T.promo (decide (u ∈ a.keys)) e.count)) := hocc
  have hle : ∀ u e, T.entry u = some e →
      ((BitVec.ofNat 64 (Spec.Table.newCount T.promo (decide (u ∈ a.keys)) e.count)
          ≤ (m.countAssociations a).removal) ↔
        Spec.Table.newCount T.promo (decide (u ∈ a.keys)) e.count ≤ T.removal) := by
    intro u e hu
    have hb := h.bound u e hu
    rw [BitVec.le_def, BitVec.toNat_ofNat, Nat.mod_eq_of_lt (newCount_lt (by omega)), ← h.removal]
    rfl
  have hge : ∀ u e, T.entry u = some e →
      ((BitVec.ofNat 64 (Spec.Table.newCount T.promo (decide (u ∈ a.keys)) e.count)
          ≥ (m.countAssociations a).promo) ↔
        T.promo ≤ Spec.Table.newCount T.promo (decide (u ∈ a.keys)) e.count) := by
    intro u e hu
    have hb := h.bound u e hu
    rw [ge_iff_le, BitVec.le_def, BitVec.toNat_ofNat, Nat.mod_eq_of_lt (newCount_lt (by omega)),
      ← h.promo]
    rfl
  constructor
  · rw [e2]; exact h.promo
  · rw [e3]; exact h.removal
  · intro u
    rw [e4 u, key u]
    show _ = ((T.entry u).bind _).map _
    have ht := h.tracks u
    cases hu : T.entry u with
    | none => simpa [hu, countAssociations] using ht
    | some e =>
      rw [hu] at ht
      simp only [Option.map_some, Option.bind_some, Spec.Table.updateEntry, hle u e hu]
      split
      · rfl
      · exact ht
  · intro u
    rw [e6 u, key u]
    show _ = ((T.entry u).bind _).map _
    have ht := h.statuses u
    cases hu : T.entry u with
    | none => simpa [hu, countAssociations] using ht
    | some e =>
      rw [hu] at ht
      simp only [Option.map_some, Option.bind_some, Spec.Table.updateEntry, hle u e hu, hge u e hu]
      split
      · rfl
      · split
        · rename_i h2; simp [h2, statusOf]
        · rename_i h2; simpa [h2, countAssociations] using ht
  · intro u
    rw [e5 u, key u]
    show _ = ((T.entry u).bind _).map _
    have ht := hocc u
    cases hu : T.entry u with
    | none => simpa [hu] using ht
    | some e =>
      rw [hu] at ht
      simp only [Option.map_some, Option.bind_some, Spec.Table.updateEntry, hle u e hu]
      split
      · rfl
      · exact ht
  · intro u e he
    change (T.entry u).bind _ = some e at he
    cases hu : T.entry u with
    | none => rw [hu] at he; simp at he
    | some e0 =>
      have hb := h.bound u e0 hu
      rw [hu] at he
      simp only [Option.bind_some, Spec.Table.updateEntry] at he
      split at he
      · cases he
      · cases he
        rename_i hr
        show 1 ≤ Spec.Table.newCount _ _ _ ∧ Spec.Table.newCount _ _ _ ≤ _
        unfold Spec.Table.newCount at hr ⊢
        split <;> simp_all <;> omega
  · intro u e he
    change (T.entry u).bind _ = some e at he
    cases hu : T.entry u with
    | none => rw [hu] at he; simp at he
    | some e0 =>
      rw [hu] at he
      simp only [Option.bind_some, Spec.Table.updateEntry] at he
      split at he
      · cases he
      · cases he
        exact h.uuid u e0 hu
  · intro u e he hc
    change (T.entry u).bind _ = some e at he
    show e.count < T.promo ∨ e.count = 1
    cases hu : T.entry u with
    | none => rw [hu] at he; simp at he
    | some e0 =>
      rw [hu] at he
      simp only [Option.bind_some, Spec.Table.updateEntry] at he
      split at he
      · cases he
      · cases he
        left
        simp only [Bool.or_eq_false_iff, decide_eq_false_iff_not, not_le] at hc
        exact hc.2

/-! ### add_tentative_track -/

theorem rel_add {n : ℕ} {m : Manager τ} {T : Spec.Table τ} (h : Rel n m T) (t : τ) :
    Rel n (addTentativeTrack t m).1 (Spec.Table.step (.add t : Op τ S C) T).1 ∧
      (addTentativeTrack t m).2 = (Spec.Table.step (.add t : Op τ S C) T).2 := by
  have ht := h.tracks (TrackOps.uuid t)
  cases hu : T.entry (TrackOps.uuid t) with
  | some e =>
    rw [hu] at ht
    have hc : m.tracks.count (TrackOps.uuid t) ≠ 0 := by
      rw [Ne, UMap.count_eq_zero, ht]; simp
    simp only [addTentativeTrack, Spec.Table.step, hu, if_pos hc]
    exact ⟨h, trivial⟩
  | none =>
    rw [hu] at ht
    have hc : m.tracks.count (TrackOps.uuid t) = 0 := by
      rw [UMap.count_eq_zero, ht]; rfl
    simp only [addTentativeTrack, hc, Spec.Table.step, hu, ne_eq, not_true_eq_false, if_false,
      and_true]
    constructor
    · exact h.promo
    · exact h.removal
    · intro u
      by_cases hk : u = TrackOps.uuid t
      · simp [hk]
      · simp [hk, h.tracks u]
    · intro u
      by_cases hk : u = TrackOps.uuid t
      · simp [hk, statusOf]
      · simp [hk, h.statuses u]
    · intro u
      by_cases hk : u = TrackOps.uuid t
      · simp [hk]
      · simp [hk, h.occ u]
    · intro u e he
      by_cases hk : u = TrackOps.uuid t
      · simp only [hk, if_true, Option.some.injEq] at he
        subst he; simp
      · simp only [hk, if_false] at he
        have := h.bound u e he
        omega
    · intro u e he
      by_cases hk : u = TrackOps.uuid t
      · simp only [hk, if_true, Option.some.injEq] at he
        subst he; exact hk.symm
      · simp only [hk, if_false] at he
        exact h.uuid u e he
    · intro u e he hcf
      by_cases hk : u = TrackOps.uuid t
      · simp only [hk, if_true, Option.some.injEq] at he
        subst he; exact .inr rfl
      · simp only [hk, if_false] at he
        exact h.tent u e he hcf

/-! ### threshold setters -/

theorem indexOrInsert_some {V : Type} {m : UMap Uuid V} {k : Uuid} {d v : V}
    (h : m.find? k = some v) : indexOrInsert m k d = (m, v) := by
  simp [indexOrInsert, h]

theorem reclassify_fold (l : List (Uuid × τ)) (m : Manager τ)
    (hocc : ∀ u ∈ l.map (·.1), (m.occ.find? u).isSome) :
    let m' := l.foldl reclassify m
    m'.promo = m.promo ∧ m'.removal = m.removal ∧ m'.tracks = m.tracks ∧ m'.occ = m.occ ∧
      ∀ u, m'.statuses.find? u = if u ∈ l.map (·.1) then
          (m.occ.find? u).map (fun c => if c ≥ m.promo then TrackStatus.confirmed else .tentative)
        else m.statuses.find? u := by
  induction l generalizing m with
  | nil => simp
  | cons a l ih =>
    obtain ⟨k, t⟩ := a
    obtain ⟨c, hc⟩ := Option.isSome_iff_exists.1 (hocc k (by simp))
    have hstep : reclassify m (k, t) =
        { m with statuses := m.statuses.set k (if c ≥ m.promo then .confirmed else .tentative) } := by
      unfold reclassify
      rw [indexOrInsert_some hc]
      by_cases hp : c ≥ m.promo
      · simp [hp]
      · have hlt : c < m.promo := by
          rw [BitVec.lt_def]; rw [ge_iff_le, BitVec.le_def] at hp; omega
        simp only [hp, if_false, indexOrInsert_some hc, hlt, if_true]
    simp only [List.foldl_cons]
    rw [hstep]
    obtain ⟨h1, h2, h3, h4, h5⟩ := ih
      { m with statuses := m.statuses.set k (if c ≥ m.promo then .confirmed else .tentative) }
      (fun u hu => hocc u (List.mem_cons_of_mem _ hu))
    refine ⟨h1, h2, h3, h4, ?_⟩
    intro u
    rw [h5 u]
    by_cases hu : u ∈ l.map (·.1)
    · have : u ∈ ((k, t) :: l).map (·.1) := List.mem_cons_of_mem _ hu
      rw [if_pos hu, if_pos this]
    · rw [if_neg hu]
      by_cases hk : u = k
      · subst hk; simp [hc]
      · have : u ∉ ((k, t) :: l).map (·.1) := by
          rw [List.map_cons, List.mem_cons, not_or]; exact ⟨hk, hu⟩
        rw [if_neg this]
        simp [hk]

theorem rel_setPromotion {n : ℕ} {m : Manager τ} {T : Spec.Table τ} (h : Rel n m T)
    (hn : n + 2 < 2 ^ 64) (p : BitVec 64) :
    Rel n (m.setPromotion p) (Spec.Table.step (.setPromotion p : Op τ S C) T).1 := by
  have hocc : ∀ u ∈ m.tracks.entries.map (·.1), (m.occ.find? u).isSome := by
    intro u hu
    have h' : (m.tracks.find? u).isSome := UMap.find?_isSome.2 hu
    rw [h.tracks u] at h'; rw [h.occ u]; simpa using h'
  obtain ⟨h1, h2, h3, h4, h5⟩ :=
    reclassify_fold m.tracks.entries { m with promo := p } hocc
  constructor
  · show (setPromotion p m).promo.toNat = p.toNat
    exact congrArg _ h1
  · show (setPromotion p m).removal.toNat = T.removal
    rw [show (setPromotion p m).removal = m.removal from h2]; exact h.removal
  · intro u
    rw [show (setPromotion p m).tracks = m.tracks from h3, h.tracks u]
    simp only [Spec.Table.step, Option.map_map]; rfl
  · intro u
    refine (h5 u).trans ?_
    have hm : u ∈ m.tracks.entries.map (·.1) ↔ (T.entry u).isSome := by
      rw [← AList.find?_isSome]
      show (m.tracks.find? u).isSome ↔ _
      rw [h.tracks u]; simp
    simp only [Spec.Table.step, Option.map_map]
    cases hu : T.entry u with
    | none =>
      rw [hu] at hm
      simp only [Option.isSome_none, Bool.false_eq_true, iff_false] at hm
      rw [if_neg hm]
      simpa [hu] using h.statuses u
    | some e =>
      rw [hu] at hm
      rw [if_pos (hm.2 rfl)]
      show (m.occ.find? u).map _ = _
      have hb := h.bound u e hu
      rw [h.occ u, hu]
      simp only [Option.map_some, Function.comp, statusOf]
      have : (BitVec.ofNat 64 e.count ≥ p) ↔ p.toNat ≤ e.count := by
        rw [ge_iff_le, BitVec.le_def, BitVec.toNat_ofNat, Nat.mod_eq_of_lt (by omega)]
      simp only [this, decide_eq_true_eq]
  · intro u
    rw [show (setPromotion p m).occ = m.occ from h4, h.occ u]
    simp only [Spec.Table.step, Option.map_map]; rfl
  · intro u e he
    simp only [Spec.Table.step, Option.map_eq_some_iff] at he
    obtain ⟨e0, he0, rfl⟩ := he
    exact h.bound u e0 he0
  · intro u e he
    simp only [Spec.Table.step, Option.map_eq_some_iff] at he
    obtain ⟨e0, he0, rfl⟩ := he
    exact h.uuid u e0 he0
  · intro u e he hcf
    simp only [Spec.Table.step, Option.map_eq_some_iff] at he
    obtain ⟨e0, he0, rfl⟩ := he
    left
    show e0.count < p.toNat
    simpa using hcf

theorem prune_fold (l : List (Uuid × BitVec 64)) (hl : (l.map (·.1)).Nodup) (m : Manager τ) :
    let m' := l.foldl pruneEntry m
    m'.promo = m.promo ∧ m'.removal = m.removal ∧
      (∀ u, m'.tracks.find? u = match AList.find? u l with
        | some c => if c ≤ m.removal then none else m.tracks.find? u
        | none => m.tracks.find? u) ∧
      (∀ u, m'.occ.find? u = match AList.find? u l with
        | some c => if c ≤ m.removal then none else m.occ.find? u
        | none => m.occ.find? u) ∧
      (∀ u, m'.statuses.find? u = match AList.find? u l with
        | some c => if c ≤ m.removal then none else m.statuses.find? u
        | none => m.statuses.find? u) := by
  induction l generalizing m with
  | nil => exact ⟨rfl, rfl, fun _ => rfl, fun _ => rfl, fun _ => rfl⟩
  | cons a l ih =>
    obtain ⟨k, c⟩ := a
    rw [List.map_cons, List.nodup_cons] at hl
    have hkl : AList.find? k l = none := AList.find?_eq_none.2 hl.1
    obtain ⟨e2, e3, e4, e5, e6⟩ := ih hl.2 (pruneEntry m (k, c))
    by_cases h1 : c ≤ m.removal
    · have hp : pruneEntry m (k, c) =
          { m with tracks := m.tracks.erase k, statuses := m.statuses.erase k,
                   occ := m.occ.erase k } := by simp [pruneEntry, h1]
      rw [List.foldl_cons]
      rw [hp] at e2 e3 e4 e5 e6 ⊢
      refine ⟨e2, e3, ?_, ?_, ?_⟩
      · intro u
        rw [e4 u]
        by_cases hk : k = u
        · subst hk; simp [AList.find?, hkl, h1, UMap.find?_erase]
        · simp [AList.find?, hk, UMap.find?_erase, Ne.symm hk]
      · intro u
        rw [e5 u]
        by_cases hk : k = u
        · subst hk; simp [AList.find?, hkl, h1, UMap.find?_erase]
        · simp [AList.find?, hk, UMap.find?_erase, Ne.symm hk]
      · intro u
        rw [e6 u]
        by_cases hk : k = u
        · subst hk; simp [AList.find?, hkl, h1, UMap.find?_erase]
        · simp [AList.find?, hk, UMap.find?_erase, Ne.symm hk]
    · have hp : pruneEntry m (k, c) = m := by simp [pruneEntry, h1]
      rw [List.foldl_cons]
      rw [hp] at e2 e3 e4 e5 e6 ⊢
      refine ⟨e2, e3, ?_, ?_, ?_⟩
      · intro u
        rw [e4 u]
        by_cases hk : k = u
        · subst hk; simp [AList.find?, hkl, h1]
        · simp [AList.find?, hk]
      · intro u
        rw [e5 u]
        by_cases hk : k = u
        · subst hk; simp [AList.find?, hkl, h1]
        · simp [AList.find?, hk]
      · intro u
        rw [e6 u]
        by_cases hk : k = u
        · subst hk; simp [AList.find?, hkl, h1]
        · simp [AList.find?, hk]

theorem rel_setRemoval {n : ℕ} {m : Manager τ} {T : Spec.Table τ} (h : Rel n m T)
    (hn : n + 2 < 2 ^ 64) (r : BitVec 64) :
    Rel n (m.setRemoval r) (Spec.Table.step (.setRemoval r : Op τ S C) T).1 := by
  obtain ⟨h1, h2, h3, h4, h5⟩ :=
    prune_fold m.occ.entries m.occ.nodup { m with removal := r }
  have key : ∀ u, AList.find? u m.occ.entries =
      (T.entry u).map (fun e => BitVec.ofNat 64 e.count) := h.occ
  have hle : ∀ u e, T.entry u = some e → (BitVec.ofNat 64 e.count ≤ r ↔ e.count ≤ r.toNat) := by
    intro u e hu
    have := h.bound u e hu
    rw [BitVec.le_def, BitVec.toNat_ofNat, Nat.mod_eq_of_lt (by omega)]
  constructor
  · show (setRemoval r m).promo.toNat = T.promo
    rw [show (setRemoval r m).promo = m.promo from h1]; exact h.promo
  · show (setRemoval r m).removal.toNat = r.toNat
    exact congrArg _ h2
  · intro u
    refine (h3 u).trans ?_
    rw [key u]
    have ht := h.tracks u
    simp only [Spec.Table.step]
    cases hu : T.entry u with
    | none => simpa [hu] using ht
    | some e =>
      rw [hu] at ht
      simp only [Option.map_some, Option.bind_some, hle u e hu]
      split
      · rfl
      · exact ht
  · intro u
    refine (h5 u).trans ?_
    rw [key u]
    have ht := h.statuses u
    simp only [Spec.Table.step]
    cases hu : T.entry u with
    | none => simpa [hu] using ht
    | some e =>
      rw [hu] at ht
      simp only [Option.map_some, Option.bind_some, hle u e hu]
      split
      · rfl
      · exact ht
  · intro u
    refine (h4 u).trans ?_
    rw [key u]
    have ht := h.occ u
    simp only [Spec.Table.step]
    cases hu : T.entry u with
    | none => simpa [hu] using ht
    | some e =>
      rw [hu] at ht
      simp only [Option.map_some, Option.bind_some, hle u e hu]
      split
      · rfl
      · exact ht
  · intro u e he
    simp only [Spec.Table.step, Option.bind_eq_some_iff] at he
    obtain ⟨e0, he0, he⟩ := he
    split at he
    · cases he
    · cases he
      exact h.bound u e he0
  · intro u e he
    simp only [Spec.Table.step, Option.bind_eq_some_iff] at he
    obtain ⟨e0, he0, he⟩ := he
    split at he
    · cases he
    · cases he
      exact h.uuid u e he0
  · intro u e he hcf
    simp only [Spec.Table.step, Option.bind_eq_some_iff] at he
    obtain ⟨e0, he0, he⟩ := he
    split at he
    · cases he
    · cases he
      exact h.tent u e he0 hcf

/-! ### update_track -/

theorem rel_withTrack {n : ℕ} {m : Manager τ} {T : Spec.Table τ} (h : Rel n m T) (u : Uuid)
    (f : τ → τ × Outcome Unit) (hf : ∀ t, TrackOps.uuid (f t).1 = TrackOps.uuid t) :
    Rel n (withTrack u f m).1 (T.modifyTrack u f).1 ∧
      (withTrack u f m).2 = (T.modifyTrack u f).2 := by
  have ht := h.tracks u
  unfold withTrack Spec.Table.modifyTrack
  cases hu : T.entry u with
  | none =>
    rw [hu] at ht
    simp only [ht, Option.map_none]
    exact ⟨h, trivial⟩
  | some e =>
    rw [hu] at ht
    simp only [ht, Option.map_some, and_true]
    constructor
    · exact h.promo
    · exact h.removal
    · intro v
      rw [UMap.find?_replace]
      by_cases hv : v = u
      · subst hv; simp [ht]
      · simp [hv, h.tracks v]
    · intro v
      by_cases hv : v = u
      · subst hv; simp [h.statuses v, hu]
      · simp [hv, h.statuses v]
    · intro v
      by_cases hv : v = u
      · subst hv; simp [h.occ v, hu]
      · simp [hv, h.occ v]
    · intro v e' he
      by_cases hv : v = u
      · simp only [hv, if_true, Option.some.injEq] at he
        subst he; exact h.bound u e hu
      · simp only [hv, if_false] at he
        exact h.bound v e' he
    · intro v e' he
      by_cases hv : v = u
      · simp only [hv, if_true, Option.some.injEq] at he
        subst he; rw [hv]; exact (hf e.track).trans (h.uuid u e hu)
      · simp only [hv, if_false] at he
        exact h.uuid v e' he
    · intro v e' he hcf
      by_cases hv : v = u
      · simp only [hv, if_true, Option.some.injEq] at he
        subst he; exact h.tent u e hu hcf
      · simp only [hv, if_false] at he
        exact h.tent v e' he hcf

/-- Sequencing two modifications of the same stored object. -/
theorem withTrack_andThen (u : Uuid) (f g : τ → τ × Outcome Unit) (m : Manager τ) :
    Act.andThen (withTrack u f) (fun _ => withTrack u g) m
      = withTrack u (fun t => match f t with
          | (t', .ok _) => g t'
          | (t', .throw e) => (t', .throw e)
          | (t', .ub w) => (t', .ub w)) m := by
  have hrr : ∀ (m : Manager τ) (a b : τ),
      (m.tracks.replace u a).replace u b = m.tracks.replace u b := by
    intro m a b
    simp only [UMap.replace, List.map_map]
    congr 1
    refine List.map_congr_left ?_
    rintro ⟨k, v⟩ _
    by_cases hk : k = u <;> simp [hk]
  unfold Act.andThen withTrack
  cases ht : m.tracks.find? u with
  | none => rfl
  | some t =>
    dsimp only
    rcases hf : f t with ⟨t', o⟩
    cases o with
    | ok x =>
      dsimp only
      rw [UMap.find?_replace, if_pos rfl, ht]
      dsimp only [Option.map_some]
      rw [hrr]
    | throw e => rfl
    | ub w => rfl

theorem updateTrack_eq (u : Uuid) (ts : ℝ) (s : S) (c : C) (m : Manager τ) :
    updateTrack u ts s c m = withTrack u (Spec.Table.setEstimate ts s c) m := by
  unfold updateTrack
  have e : (Act.andThen (withTrack u fun t : τ => TrackOps.setState t s) fun _ =>
      withTrack u fun t => TrackOps.setCovariance t c)
      = withTrack u (fun t => match TrackOps.setState t s with
          | (t', .ok _) => TrackOps.setCovariance t' c
          | (t', .throw e) => (t', .throw e)
          | (t', .ub w) => (t', .ub w)) := funext fun m => withTrack_andThen u _ _ m
  rw [show (fun _ : Unit => Act.andThen (withTrack u fun t : τ => TrackOps.setState t s) fun _ =>
      withTrack u fun t => TrackOps.setCovariance t c) = fun _ : Unit => withTrack u _ from
      funext fun _ => e, withTrack_andThen]
  rfl

theorem updateTrackFrom_eq (u : Uuid) (src : τ) (m : Manager τ) :
    updateTrackFrom u src m = withTrack u (Spec.Table.copyEstimate src) m := by
  unfold updateTrackFrom
  have e : (Act.andThen (withTrack u fun t : τ => TrackOps.copyState t src) fun _ =>
      withTrack u fun t => TrackOps.copyCovariance t src)
      = withTrack u (fun t => match TrackOps.copyState t src with
          | (t', .ok _) => TrackOps.copyCovariance t' src
          | (t', .throw e) => (t', .throw e)
          | (t', .ub w) => (t', .ub w)) := funext fun m => withTrack_andThen u _ _ m
  rw [show (fun _ : Unit => Act.andThen (withTrack u fun t : τ => TrackOps.copyState t src) fun _ =>
      withTrack u fun t => TrackOps.copyCovariance t src) = fun _ : Unit => withTrack u _ from
      funext fun _ => e, withTrack_andThen]
  rfl

variable [LawfulTrackOps τ]

theorem uuid_setEstimate (ts : ℝ) (s : S) (c : C) (t : τ) :
    TrackOps.uuid (Spec.Table.setEstimate ts s c t).1 = TrackOps.uuid t := by
  unfold Spec.Table.setEstimate
  have h1 := LawfulTrackOps.uuid_setState (TrackOps.setTimestamp t ts) s
  rw [LawfulTrackOps.uuid_setTimestamp] at h1
  dsimp only
  split
  · rename_i t2 _ h; rw [h] at h1
    rw [LawfulTrackOps.uuid_setCovariance]; exact h1
  · rename_i t2 _ h; rw [h] at h1; exact h1
  · rename_i t2 _ h; rw [h] at h1; exact h1

theorem uuid_copyEstimate (src t : τ) :
    TrackOps.uuid (Spec.Table.copyEstimate src t).1 = TrackOps.uuid t := by
  unfold Spec.Table.copyEstimate
  have h1 := LawfulTrackOps.uuid_copyState (TrackOps.setTimestamp t (TrackOps.timestamp src)) src
  rw [LawfulTrackOps.uuid_setTimestamp] at h1
  dsimp only
  split
  · rename_i t2 _ h; rw [h] at h1
    rw [LawfulTrackOps.uuid_copyCovariance]; exact h1
  · rename_i t2 _ h; rw [h] at h1; exact h1
  · rename_i t2 _ h; rw [h] at h1; exact h1

/-! ### simulation -/

theorem rel_step {n : ℕ} {m : Manager τ} {T : Spec.Table τ} (h : Rel n m T)
    (hn : n + 2 < 2 ^ 64) (op : Op τ S C) :
    Rel (n + op.updates) (step op m).1 (T.step op).1 ∧ (step op m).2 = (T.step op).2 := by
  cases op with
  | add t => exact rel_add h t
  | update a => exact rel_update h hn a
  | setPromotion p => exact ⟨rel_setPromotion h hn p, rfl⟩
  | setRemoval r => exact ⟨rel_setRemoval h hn r, rfl⟩
  | updateTrack u ts s c =>
    simp only [step, Spec.Table.step, updateTrack_eq]
    exact rel_withTrack h u (Spec.Table.setEstimate ts s c) (uuid_setEstimate ts s c)
  | updateTrackFrom u t =>
    simp only [step, Spec.Table.step, updateTrackFrom_eq]
    exact rel_withTrack h u (Spec.Table.copyEstimate t) (uuid_copyEstimate t)

theorem rel_runs {ops : List (Op τ S C)} {n : ℕ} {m m' : Manager τ} {os : List (Outcome Unit)}
    {T : Spec.Table τ} (h : Rel n m T) (hr : Runs m ops os m')
    (hn : n + numUpdates ops + 2 < 2 ^ 64) :
    Rel (n + numUpdates ops) m' (T.run ops) ∧ os = T.outcomes ops := by
  induction ops generalizing n m os T with
  | nil =>
    cases hr with
    | nil hr => exact ⟨h.reordered hr, rfl⟩
  | cons op ops ih =>
    cases hr with
    | cons hro hr =>
      have hs : numUpdates (op :: ops) = op.updates + numUpdates ops := rfl
      rw [hs] at hn ⊢
      obtain ⟨h1, h2⟩ := rel_step (h.reordered hro) (by omega) op
      obtain ⟨h3, h4⟩ := ih h1 hr (by omega)
      refine ⟨?_, ?_⟩
      · rw [← Nat.add_assoc]; exact h3
      · rw [h2, h4]; rfl

omit [TrackOps τ S C] [LawfulTrackOps τ] in
theorem Reordered.refl (m : Manager τ) : m.Reordered m :=
  ⟨rfl, rfl, .refl _, .refl _, .refl _⟩

omit [LawfulTrackOps τ] in
/-- The deterministic execution is one of the histories. -/
theorem runs_run (ops : List (Op τ S C)) (m : Manager τ) :
    Runs m ops (outcomes ops m) (run ops m) := by
  induction ops generalizing m with
  | nil => exact .nil (.refl m)
  | cons op ops ih => exact .cons (.refl m) (ih _)

end Manager
end Mot
