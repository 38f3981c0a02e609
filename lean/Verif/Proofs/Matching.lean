import Verif.Spec.Matching
import Verif.Proofs.Maps
import Verif.Proofs.Cost
import Verif.Proofs.Assign
/-! # Lemmas about track matching -/

namespace Mot
open Spec Finset

/-! ## Outcomes of element-wise evaluation -/

theorem Outcome.mapM'_ok {α β : Type} {f : α → Outcome β} {l : List α} {g : α → β}
    (h : ∀ a ∈ l, f a = .ok (g a)) : Outcome.mapM' f l = .ok (l.map g) := by
  induction l with
  | nil => rfl
  | cons a l ih =>
    rw [Outcome.mapM', h a (by simp), ih fun b hb => h b (by simp [hb])]
    rfl

theorem Outcome.mapM'_ub {α β : Type} {f : α → Outcome β} {l : List α}
    (ht : ∀ a ∈ l, ∀ e, f a ≠ .throw e) (hu : ∃ a ∈ l, (f a).IsUb) :
    (Outcome.mapM' f l).IsUb := by
  induction l with
  | nil => simp at hu
  | cons a l ih =>
    rw [Outcome.mapM']
    cases hf : f a with
    | ok b =>
      have hu' : ∃ a ∈ l, (f a).IsUb := by
        obtain ⟨x, hx, hxu⟩ := hu
        rcases List.mem_cons.1 hx with rfl | hx
        · rw [hf] at hxu; exact absurd hxu (by simp)
        · exact ⟨x, hx, hxu⟩
      have := ih (fun b hb => ht b (by simp [hb])) hu'
      cases hm : Outcome.mapM' f l with
      | ok bs => rw [hm] at this; exact absurd this (by simp)
      | throw e => rw [hm] at this; exact absurd this (by simp)
      | ub w => simp
    | throw e => exact absurd hf (ht a (by simp) e)
    | ub w => simp

theorem DMat.mem_toList {α : Type} {m : DMat α} {x : α} :
    x ∈ m.toList ↔ ∃ i j, m.get i j = x := by
  simp [DMat.toList]

theorem DMat.sequence_ok {α : Type} [Inhabited α] {m : DMat (Outcome α)}
    {f : Fin m.nr → Fin m.nc → α} (h : ∀ i j, m.get i j = .ok (f i j)) :
    m.sequence = .ok ⟨m.nr, m.nc, f⟩ := by
  unfold DMat.sequence
  rw [Outcome.mapM'_ok (g := fun o => match o with | .ok a => a | _ => default)]
  · simp [h]
  · intro a ha
    obtain ⟨i, j, rfl⟩ := DMat.mem_toList.1 ha
    simp [h]

theorem DMat.sequence_ub {α : Type} [Inhabited α] {m : DMat (Outcome α)}
    (ht : ∀ i j e, m.get i j ≠ .throw e) (hu : ∃ i j, (m.get i j).IsUb) :
    m.sequence.IsUb := by
  have := Outcome.mapM'_ub (f := id) (l := m.toList) (fun a ha e he => by
      obtain ⟨i, j, rfl⟩ := DMat.mem_toList.1 ha
      exact ht i j e he) (by
      obtain ⟨i, j, h⟩ := hu
      exact ⟨_, DMat.mem_toList.2 ⟨i, j, rfl⟩, h⟩)
  unfold DMat.sequence
  cases h : Outcome.mapM' id m.toList with
  | ok bs => rw [h] at this; exact absurd this (by simp)
  | throw e => rw [h] at this; exact absurd this (by simp)
  | ub w => simp

/-! ## Squaring -/

theorem makeSquareMatrix_eq {α : Type} (m : DMat α) (pad : α) :
    makeSquareMatrix m pad = ⟨max m.nr m.nc, max m.nr m.nc, fun i j =>
      if h : i.1 < m.nr ∧ j.1 < m.nc then some (m.get ⟨i.1, h.1⟩ ⟨j.1, h.2⟩) else some pad⟩ := by
  unfold makeSquareMatrix DMat.fill DMat.get?
  split
  · rename_i hgt
    simp only
    congr 1
    funext i j
    have hi := i.2
    have hj := j.2
    by_cases h : i.1 < m.nr ∧ j.1 < m.nc
    · rw [if_neg (by omega), if_pos (by omega), dif_pos h, dif_pos h]
    · rw [if_pos (by omega), dif_neg h]
  · rename_i hgt
    simp only
    congr 1
    funext i j
    have hi := i.2
    have hj := j.2
    by_cases h : i.1 < m.nr ∧ j.1 < m.nc
    · rw [if_neg (by omega), if_pos (by omega), dif_pos h, dif_pos h]
    · rw [if_pos (by omega), dif_neg h]

theorem readAll_makeSquare (T D : ℕ) (c : Fin T → Fin D → ℤ) (pad : ℤ) :
    readAll (makeSquareMatrix ⟨T, D, c⟩ pad) = .ok ⟨max T D, max T D, padded c pad⟩ := by
  rw [makeSquareMatrix_eq]
  unfold readAll
  rw [DMat.sequence_ok (f := padded c pad)]
  intro i j
  unfold padded
  simp only
  split
  · rename_i a ha; split at ha <;> rename_i h <;> simp_all
  · rename_i ha; split at ha <;> simp at ha

/-! ## Sets of UUIDs -/

theorem mem_collect (scores : ScoreMap) (ts ds : SSet Uuid) :
    (∀ t, t ∈ (collectUuids scores ts ds).1.elems ↔ t ∈ ts.elems ∨ ScoredTrack scores t) ∧
    (∀ d, d ∈ (collectUuids scores ts ds).2.elems ↔ d ∈ ds.elems ∨ ScoredDetection scores d) := by
  have key : ∀ (l : List (UuidPair × FP)) (p : SSet Uuid × SSet Uuid),
      (∀ t, t ∈ (l.foldl (fun p e => (p.1.insert (ofLex e.1).1, p.2.insert (ofLex e.1).2)) p).1.elems
        ↔ t ∈ p.1.elems ∨ ∃ e ∈ l, (ofLex e.1).1 = t) ∧
      (∀ t, t ∈ (l.foldl (fun p e => (p.1.insert (ofLex e.1).1, p.2.insert (ofLex e.1).2)) p).2.elems
        ↔ t ∈ p.2.elems ∨ ∃ e ∈ l, (ofLex e.1).2 = t) := by
    intro l
    induction l with
    | nil => simp
    | cons e l ih =>
      intro p
      obtain ⟨h1, h2⟩ := ih (p.1.insert (ofLex e.1).1, p.2.insert (ofLex e.1).2)
      constructor
      · intro t
        rw [List.foldl_cons, h1]
        simp only [SSet.mem_insert, List.mem_cons, exists_eq_or_imp]
        rw [eq_comm (a := t)]
        tauto
      · intro t
        rw [List.foldl_cons, h2]
        simp only [SSet.mem_insert, List.mem_cons, exists_eq_or_imp]
        rw [eq_comm (a := t)]
        tauto
  obtain ⟨h1, h2⟩ := key scores.entries (ts, ds)
  constructor
  · intro t
    unfold collectUuids
    rw [h1]
    refine or_congr Iff.rfl ?_
    unfold ScoredTrack Scored
    constructor
    · rintro ⟨⟨k, s⟩, he, rfl⟩
      exact ⟨(ofLex k).2, Option.isSome_iff_exists.2 ⟨s, SMap.find?_eq_some.2 he⟩⟩
    · rintro ⟨d, hd⟩
      obtain ⟨s, hs⟩ := Option.isSome_iff_exists.1 hd
      exact ⟨(mkPair t d, s), SMap.find?_eq_some.1 hs, rfl⟩
  · intro t
    unfold collectUuids
    rw [h2]
    refine or_congr Iff.rfl ?_
    unfold ScoredDetection Scored
    constructor
    · rintro ⟨⟨k, s⟩, he, rfl⟩
      exact ⟨(ofLex k).1, Option.isSome_iff_exists.2 ⟨s, SMap.find?_eq_some.2 he⟩⟩
    · rintro ⟨d, hd⟩
      obtain ⟨s, hs⟩ := Option.isSome_iff_exists.1 hd
      exact ⟨(mkPair d t, s), SMap.find?_eq_some.1 hs, rfl⟩

/-- the set of tracks used by the associator -/
def trackSet (scores : ScoreMap) : SSet Uuid := (collectUuids scores .empty .empty).1
/-- the set of detections used by the associator -/
def detSet (scores : ScoreMap) : SSet Uuid := (collectUuids scores .empty .empty).2

theorem mem_trackSet {scores : ScoreMap} {t : Uuid} :
    t ∈ (trackSet scores).elems ↔ ScoredTrack scores t := by
  unfold trackSet
  rw [(mem_collect scores .empty .empty).1]
  simp [SSet.empty]

theorem mem_detSet {scores : ScoreMap} {t : Uuid} :
    t ∈ (detSet scores).elems ↔ ScoredDetection scores t := by
  unfold detSet
  rw [(mem_collect scores .empty .empty).2]
  simp [SSet.empty]

theorem scored_iff_mem {scores : ScoreMap} {t d : Uuid} :
    Scored scores t d ↔ ∃ s, (mkPair t d, s) ∈ scores.entries := by
  unfold Scored
  rw [Option.isSome_iff_exists]
  simp only [SMap.find?_eq_some]

theorem trackSet_size (scores : ScoreMap) : (trackSet scores).size = trackCount scores := by
  unfold SSet.size trackCount
  rw [← List.toFinset_card_of_nodup (trackSet scores).nodup]
  congr 1
  ext t
  rw [List.mem_toFinset, List.mem_toFinset, mem_trackSet, List.mem_map]
  unfold ScoredTrack
  simp only [scored_iff_mem]
  constructor
  · rintro ⟨d, s, h⟩; exact ⟨_, h, rfl⟩
  · rintro ⟨⟨k, s⟩, h, rfl⟩; exact ⟨(ofLex k).2, s, h⟩

theorem detSet_size (scores : ScoreMap) : (detSet scores).size = detectionCount scores := by
  unfold SSet.size detectionCount
  rw [← List.toFinset_card_of_nodup (detSet scores).nodup]
  congr 1
  ext t
  rw [List.mem_toFinset, List.mem_toFinset, mem_detSet, List.mem_map]
  unfold ScoredDetection
  simp only [scored_iff_mem]
  constructor
  · rintro ⟨d, s, h⟩; exact ⟨_, h, rfl⟩
  · rintro ⟨⟨k, s⟩, h, rfl⟩; exact ⟨(ofLex k).1, s, h⟩

theorem nth_inj (s : SSet Uuid) : Function.Injective s.nth := by
  intro i j h
  exact s.nodup.injective_get h

theorem mem_iff_nth {s : SSet Uuid} {u : Uuid} : u ∈ s.elems ↔ ∃ i, s.nth i = u :=
  List.mem_iff_get

/-! ## The association loop -/

/-- `long` converted to `size_t` -/
def u64 (x : ℤ) : ℕ := (BitVec.ofInt 64 x).toNat

theorem u64_eq (x : ℤ) : u64 x = (x % 2 ^ 64).toNat := by
  unfold u64; rw [BitVec.toNat_ofInt]; rfl

theorem getElementAt_lt {s : SSet Uuid} {i : ℕ} (h : i < s.size) :
    getElementAt s i = .ok (s.nth ⟨i, h⟩) := by
  unfold getElementAt
  rw [List.getElem?_eq_getElem h]; rfl

theorem getElementAt_ge {s : SSet Uuid} {i : ℕ} (h : s.size ≤ i) :
    getElementAt s i = .throw .outOfRange := by
  unfold getElementAt
  rw [List.getElem?_eq_none h]

theorem assocLoop_throw {ts ds : SSet Uuid} {xs : List ℤ} {i : ℕ} {a : AssociationMap}
    (h : ∃ k x, xs[k]? = some x ∧ u64 x < ds.size ∧ ts.size ≤ i + k) :
    assocLoop ts ds i xs a = .throw .outOfRange := by
  induction xs generalizing i a with
  | nil => obtain ⟨k, x, h, _⟩ := h; simp at h
  | cons x xs ih =>
    have step : ∀ a', (∃ k x, xs[k]? = some x ∧ u64 x < ds.size ∧ ts.size ≤ (i + 1) + k) →
        assocLoop ts ds (i + 1) xs a' = .throw .outOfRange := fun a' h' => ih h'
    have hcase : (u64 x < ds.size ∧ ts.size ≤ i) ∨
        (∃ k x, xs[k]? = some x ∧ u64 x < ds.size ∧ ts.size ≤ (i + 1) + k) := by
      obtain ⟨k, y, hk, hy, hs⟩ := h
      cases k with
      | zero => simp at hk; subst hk; exact .inl ⟨hy, hs⟩
      | succ k => simp at hk; exact .inr ⟨k, y, hk, hy, by omega⟩
    rw [assocLoop]
    by_cases hx : (BitVec.ofInt 64 x).toNat ≥ ds.size
    · rw [if_pos hx]
      rcases hcase with ⟨h1, _⟩ | h1
      · exact absurd h1 (by unfold u64; omega)
      · exact step _ h1
    · rw [if_neg hx]
      by_cases hi : i < ts.size
      · rw [getElementAt_lt hi, getElementAt_lt (by omega)]
        rcases hcase with ⟨_, h1⟩ | h1
        · omega
        · exact step _ h1
      · rw [getElementAt_ge (by omega)]

theorem assocLoop_ok {ts ds : SSet Uuid} {xs : List ℤ} {i : ℕ} {a : AssociationMap}
    (h : ∀ k x, xs[k]? = some x → u64 x < ds.size → i + k < ts.size)
    (hfresh : ∀ k t, i ≤ k → ts.elems[k]? = some t → a.find? t = none) :
    ∃ a', assocLoop ts ds i xs a = .ok a' ∧ ∀ t l, a'.find? t = some l ↔
      a.find? t = some l ∨ ∃ k x d, xs[k]? = some x ∧ ds.elems[u64 x]? = some d ∧
        ts.elems[i + k]? = some t ∧ l = [d] := by
  induction xs generalizing i a with
  | nil => exact ⟨a, rfl, by simp⟩
  | cons x xs ih =>
    rw [assocLoop]
    have hex : ∀ t l, (∃ k y d, (x :: xs)[k]? = some y ∧ ds.elems[u64 y]? = some d ∧
        ts.elems[i + k]? = some t ∧ l = [d]) ↔
        (∃ d, ds.elems[u64 x]? = some d ∧ ts.elems[i]? = some t ∧ l = [d]) ∨
        (∃ k y d, xs[k]? = some y ∧ ds.elems[u64 y]? = some d ∧
        ts.elems[i + 1 + k]? = some t ∧ l = [d]) := by
      intro t l
      constructor
      · rintro ⟨k, y, d, h1, h2, h3, h4⟩
        cases k with
        | zero => simp at h1; subst h1; exact .inl ⟨d, h2, h3, h4⟩
        | succ k =>
          refine .inr ⟨k, y, d, by simpa using h1, h2, ?_, h4⟩
          rw [← h3]; congr 1; omega
      · rintro (⟨d, h2, h3, h4⟩ | ⟨k, y, d, h1, h2, h3, h4⟩)
        · exact ⟨0, x, d, rfl, h2, h3, h4⟩
        · refine ⟨k + 1, y, d, by simpa using h1, h2, ?_, h4⟩
          rw [← h3]; congr 1; omega
    have h' : ∀ k y, xs[k]? = some y → u64 y < ds.size → i + 1 + k < ts.size := by
      intro k y hk hy
      have := h (k + 1) y (by simpa using hk) hy
      omega
    by_cases hx : (BitVec.ofInt 64 x).toNat ≥ ds.size
    · rw [if_pos hx]
      obtain ⟨a', ha', hf⟩ := ih (i := i + 1) (a := a) h'
        (fun k t hk => hfresh k t (by omega))
      refine ⟨a', ha', fun t l => ?_⟩
      rw [hf, hex]
      have : ds.elems[u64 x]? = none := List.getElem?_eq_none hx
      simp [this]
    · rw [if_neg hx]
      have hi : i < ts.size := h 0 x rfl (by unfold u64; omega)
      have hx' : u64 x < ds.size := by unfold u64; omega
      rw [getElementAt_lt hi]
      have hget : getElementAt ds (BitVec.ofInt 64 x).toNat = .ok (ds.nth ⟨u64 x, hx'⟩) :=
        getElementAt_lt hx'
      rw [hget]
      simp only
      have hti : ts.elems[i]? = some (ts.nth ⟨i, hi⟩) := List.getElem?_eq_getElem hi
      have hdi : ds.elems[u64 x]? = some (ds.nth ⟨_, hx'⟩) := List.getElem?_eq_getElem hx'
      have hpush : pushBack a (ts.nth ⟨i, hi⟩) (ds.nth ⟨_, hx'⟩)
          = a.set (ts.nth ⟨i, hi⟩) [ds.nth ⟨_, hx'⟩] := by
        unfold pushBack
        rw [hfresh i _ le_rfl hti]; rfl
      rw [hpush]
      obtain ⟨a', ha', hf⟩ := ih (i := i + 1)
        (a := a.set (ts.nth ⟨i, hi⟩) [ds.nth ⟨_, hx'⟩]) h' (by
          intro k t hk ht
          rw [SMap.find?_set, if_neg]
          · exact hfresh k t (by omega) ht
          · rintro rfl
            rw [← hti] at ht
            have := (List.nodup_iff_getElem?_ne_getElem?.1 ts.nodup) i k (by omega)
              (by
                rcases List.getElem?_eq_some_iff.1 (ht.trans hti) with ⟨hlt, _⟩
                exact hlt)
            exact this ht.symm)
      refine ⟨a', ha', fun t l => ?_⟩
      rw [hf, hex, SMap.find?_set, hti, hdi]
      by_cases ht : t = ts.nth ⟨i, hi⟩
      · subst ht
        rw [if_pos rfl, hfresh i _ le_rfl hti]
        simp [eq_comm]
      · rw [if_neg ht]
        simp [Ne.symm ht]

/-! ## The cost matrix -/

theorem foldl_max (l : List FP) (a : ℚ) (h : ∀ x ∈ l, ∃ q, x = FP.fin q) :
    ∃ mx, l.foldl (fun v t => if FP.gt t v then t else v) (FP.fin a) = FP.fin mx ∧ a ≤ mx ∧
      (∀ q, FP.fin q ∈ l → q ≤ mx) ∧ (mx = a ∨ FP.fin mx ∈ l) := by
  induction l generalizing a with
  | nil => exact ⟨a, rfl, le_rfl, by simp, .inl rfl⟩
  | cons x l ih =>
    obtain ⟨q, rfl⟩ := h x (by simp)
    rw [List.foldl_cons]
    by_cases hq : a < q
    · have : FP.gt (.fin q) (.fin a) = true := by simp [FP.gt, hq]
      rw [this, if_pos rfl]
      obtain ⟨mx, h1, h2, h3, h4⟩ := ih q (fun y hy => h y (by simp [hy]))
      refine ⟨mx, h1, by linarith, ?_, ?_⟩
      · intro q' hq'
        rcases List.mem_cons.1 hq' with he | he
        · cases he; exact h2
        · exact h3 q' he
      · rcases h4 with h4 | h4
        · right; rw [h4]; simp
        · right; simp [h4]
    · have : FP.gt (.fin q) (.fin a) = false := by simp [FP.gt, hq]
      rw [this]
      obtain ⟨mx, h1, h2, h3, h4⟩ := ih a (fun y hy => h y (by simp [hy]))
      refine ⟨mx, h1, h2, ?_, ?_⟩
      · intro q' hq'
        rcases List.mem_cons.1 hq' with he | he
        · cases he; linarith
        · exact h3 q' he
      · rcases h4 with h4 | h4
        · left; exact h4
        · right; simp [h4]

theorem dlibMax_fin {m : DMat FP} {i₀ : Fin m.nr} {j₀ : Fin m.nc}
    (h : ∀ i j, ∃ q, m.get i j = FP.fin q) :
    ∃ mx, dlibMax m = .ok (.fin mx) ∧ (∀ i j q, m.get i j = .fin q → q ≤ mx) ∧
      ∃ i j, m.get i j = .fin mx := by
  have hall : ∀ x ∈ m.toList, ∃ q, x = FP.fin q := by
    intro x hx
    obtain ⟨i, j, rfl⟩ := DMat.mem_toList.1 hx
    exact h i j
  have hne : m.get i₀ j₀ ∈ m.toList := DMat.mem_toList.2 ⟨i₀, j₀, rfl⟩
  unfold dlibMax
  cases hl : m.toList with
  | nil => rw [hl] at hne; simp at hne
  | cons x l =>
    obtain ⟨a, rfl⟩ := hall x (by rw [hl]; simp)
    obtain ⟨mx, h1, h2, h3, h4⟩ := foldl_max (.fin a :: l) a (fun y hy => hall y (by rw [hl]; exact hy))
    refine ⟨mx, by simp only; rw [h1], ?_, ?_⟩
    · intro i j q hq
      refine h3 q ?_
      rw [← hl, ← hq]
      exact DMat.mem_toList.2 ⟨i, j, rfl⟩
    · have : FP.fin mx ∈ m.toList := by
        rw [hl]
        rcases h4 with rfl | h4
        · simp
        · exact h4
      exact DMat.mem_toList.1 this

theorem dlibMax_empty {m : DMat FP} (h : m.nr = 0 ∨ m.nc = 0) : dlibMax m = .ub .emptyMax := by
  have : m.toList = [] := by
    rw [List.eq_nil_iff_forall_not_mem]
    intro x hx
    obtain ⟨i, j, _⟩ := DMat.mem_toList.1 hx
    have := i.2; have := j.2
    omega
  unfold dlibMax
  rw [this]

theorem dlibMax_ne_throw (m : DMat FP) (e : Exc) : dlibMax m ≠ .throw e := by
  unfold dlibMax; split <;> simp

theorem costOf_ne_throw (m s : FP) (e : Exc) : costOf m s ≠ .throw e := by
  unfold costOf FP.toInt
  simp only
  split
  · split <;> simp
  · simp

theorem costMatrix_cases (m : DMat FP) :
    (costMatrix m).IsUb ∨ ∃ mx c, dlibMax m = .ok mx ∧ costMatrix m = .ok ⟨m.nr, m.nc, c⟩ ∧
      ∀ i j, costOf mx (m.get i j) = .ok (c i j) := by
  unfold costMatrix
  cases h : dlibMax m with
  | throw e => exact absurd h (dlibMax_ne_throw m e)
  | ub w => left; simp
  | ok mx =>
    simp only
    by_cases hu : ∃ i j, (costOf mx (m.get i j)).IsUb
    · left
      exact DMat.sequence_ub (m := ⟨m.nr, m.nc, fun i j => costOf mx (m.get i j)⟩)
        (fun i j e => costOf_ne_throw _ _ _) hu
    · right
      have hok : ∀ i j, ∃ c, costOf mx (m.get i j) = .ok c := by
        intro i j
        cases hc : costOf mx (m.get i j) with
        | ok c => exact ⟨c, rfl⟩
        | throw e => exact absurd hc (costOf_ne_throw _ _ _)
        | ub w => exact absurd ⟨i, j, by rw [hc]; simp⟩ hu
      choose c hc using hok
      exact ⟨mx, c, rfl, DMat.sequence_ok
        (m := ⟨m.nr, m.nc, fun i j => costOf mx (m.get i j)⟩) hc, hc⟩

theorem costMatrix_of_ub {m : DMat FP} {mx : FP} (h : dlibMax m = .ok mx)
    (hu : ∃ i j, (costOf mx (m.get i j)).IsUb) : (costMatrix m).IsUb := by
  unfold costMatrix
  rw [h]
  exact DMat.sequence_ub (m := ⟨m.nr, m.nc, fun i j => costOf mx (m.get i j)⟩)
    (fun i j e => costOf_ne_throw _ _ _) hu

/-- a non-finite score cannot be converted -/
theorem costOf_nonfinite {m s : FP} (h : ∀ q, s ≠ .fin q) : (costOf m s).IsUb := by
  unfold costOf
  cases s with
  | nan => cases m <;> simp [FP.div, FP.sub, FP.conv, FP.mul, FP.toInt]
  | inf b => cases m <;> simp [FP.div, FP.sub, FP.conv, FP.mul, FP.toInt]
  | fin q => exact absurd rfl (h q)

theorem costOf_zero_zero : (costOf (.fin 0) (.fin 0)).IsUb := by
  simp [costOf, FP.div, FP.sub, FP.conv, FP.mul, FP.toInt]

/-! ## The associator -/

/-- the score of the r-th track and c-th detection -/
def cell (scores : ScoreMap) (r : Fin (trackSet scores).size) (c : Fin (detSet scores).size) : FP :=
  match scores.find? (mkPair ((trackSet scores).nth r) ((detSet scores).nth c)) with
  | some s => s
  | none => FP.fltMax

theorem scoreMatrix_eq (scores : ScoreMap) :
    scoreMatrix scores .empty .empty =
      (⟨(trackSet scores).size, (detSet scores).size, cell scores⟩, trackSet scores, detSet scores) :=
  rfl

theorem u64_of_lt {n : ℕ} (h : n < 2 ^ 64) : u64 (n : ℤ) = n := by
  rw [u64_eq, Int.emod_eq_of_lt (by omega) (by exact_mod_cast h)]
  rfl

/-- the associator once the costs are known -/
theorem gnn_of_cost {solve : Solver} {scores : ScoreMap}
    {c : Fin (trackSet scores).size → Fin (detSet scores).size → ℤ}
    (hc : costMatrix ⟨(trackSet scores).size, (detSet scores).size, cell scores⟩
      = .ok ⟨(trackSet scores).size, (detSet scores).size, c⟩)
    {σ : Equiv.Perm (Fin (max (trackSet scores).size (detSet scores).size))}
    (hσ : solve _ (padded c intLowest) = List.ofFn fun i => ((σ i).1 : ℤ))
    (hbig : max (trackSet scores).size (detSet scores).size < 2 ^ 64) :
    ∃ a, gnnAssociator solve scores = .ok a ∧ ∀ t l, a.find? t = some l ↔
      ∃ p ∈ matchOf σ, (trackSet scores).nth p.1 = t ∧ l = [(detSet scores).nth p.2] := by
  unfold gnnAssociator
  rw [scoreMatrix_eq]
  simp only [hc]
  unfold Outcome.bind
  simp only [readAll_makeSquare]
  simp only [maxCostAssignment, dite_true, Fin.cast_eq_self]
  rw [hσ]
  simp only [List.length_ofFn]
  rw [if_neg (by omega)]
  have hget : ∀ k x, ((List.ofFn fun i => ((σ i).1 : ℤ)).take (trackSet scores).size)[k]? = some x ↔
      ∃ h : k < (trackSet scores).size, x = ((σ (rowUp ⟨k, h⟩)).1 : ℤ) := by
    intro k x
    rw [List.getElem?_take]
    by_cases hk : k < (trackSet scores).size
    · rw [if_pos hk, List.getElem?_ofFn, dif_pos (by omega)]
      simp only [Option.some.injEq, eq_comm (a := x), hk, exists_true_left]
      rfl
    · rw [if_neg hk]
      simp [hk]
  unfold associationMap
  obtain ⟨a, ha, hf⟩ := assocLoop_ok (ts := trackSet scores) (ds := detSet scores)
    (xs := (List.ofFn fun i => ((σ i).1 : ℤ)).take (trackSet scores).size) (i := 0)
    (a := SMap.empty) (by
      intro k x hk _
      obtain ⟨h, _⟩ := (hget k x).1 hk
      omega) (by simp)
  refine ⟨a, ha, fun t l => ?_⟩
  rw [hf]
  simp only [SMap.find?_empty, reduceCtorEq, false_or, zero_add]
  constructor
  · rintro ⟨k, x, d, hk, hd, ht, rfl⟩
    obtain ⟨hlt, rfl⟩ := (hget k x).1 hk
    rw [u64_of_lt (by have := (σ (rowUp ⟨k, hlt⟩)).2; omega)] at hd
    obtain ⟨hd1, hd2⟩ := List.getElem?_eq_some_iff.1 hd
    obtain ⟨ht1, ht2⟩ := List.getElem?_eq_some_iff.1 ht
    refine ⟨(⟨k, hlt⟩, ⟨_, hd1⟩), mem_matchOf.2 (Fin.ext rfl), ht2, ?_⟩
    rw [← hd2]; rfl
  · rintro ⟨⟨i, j⟩, hp, rfl, rfl⟩
    rw [mem_matchOf] at hp
    refine ⟨i.1, ((σ (rowUp i)).1 : ℤ), _, (hget _ _).2 ⟨i.2, rfl⟩, ?_,
      List.getElem?_eq_getElem i.2, rfl⟩
    rw [u64_of_lt (by have := (σ (rowUp i)).2; omega)]
    simp only at hp
    rw [hp]
    exact List.getElem?_eq_getElem j.2

theorem gnn_ub_of_cost {solve : Solver} {scores : ScoreMap}
    (hc : (costMatrix ⟨(trackSet scores).size, (detSet scores).size, cell scores⟩).IsUb) :
    (gnnAssociator solve scores).IsUb := by
  unfold gnnAssociator
  rw [scoreMatrix_eq]
  simp only
  cases h : costMatrix ⟨(trackSet scores).size, (detSet scores).size, cell scores⟩ with
  | ok a => rw [h] at hc; exact absurd hc (by simp)
  | throw e => rw [h] at hc; exact absurd hc (by simp)
  | ub w => simp [Outcome.bind]

/-! ## Pairs of an association map -/

section Pairs
variable {scores : ScoreMap}

/-- the UUIDs of a cell -/
def name (scores : ScoreMap) (p : Fin (trackSet scores).size × Fin (detSet scores).size) :
    Uuid × Uuid := ((trackSet scores).nth p.1, (detSet scores).nth p.2)

theorem name_inj : Function.Injective (name scores) := by
  intro p q h
  obtain ⟨h1, h2⟩ := Prod.mk.inj h
  exact Prod.ext (nth_inj _ h1) (nth_inj _ h2)

variable {a : AssociationMap}
  {σ : Equiv.Perm (Fin (max (trackSet scores).size (detSet scores).size))}
  (ha : ∀ t l, a.find? t = some l ↔
      ∃ p ∈ matchOf σ, (trackSet scores).nth p.1 = t ∧ l = [(detSet scores).nth p.2])
include ha

theorem mem_pairsOf (x : Uuid × Uuid) : x ∈ pairsOf a ↔ ∃ p ∈ matchOf σ, name scores p = x := by
  unfold pairsOf
  simp only [List.mem_flatMap, List.mem_map, Prod.exists]
  constructor
  · rintro ⟨t, l, hm, d, hd, rfl⟩
    obtain ⟨p, hp, rfl, rfl⟩ := (ha t l).1 (SMap.find?_eq_some.2 hm)
    refine ⟨p.1, p.2, hp, ?_⟩
    rw [List.mem_singleton.1 hd]; rfl
  · rintro ⟨i, j, hp, rfl⟩
    exact ⟨_, _, SMap.find?_eq_some.1 ((ha _ _).2 ⟨(i, j), hp, rfl, rfl⟩), _, by simp, rfl⟩

theorem entries_singleton {t : Uuid} {l : List Uuid} (h : (t, l) ∈ a.entries) :
    ∃ d, l = [d] := by
  obtain ⟨p, _, _, rfl⟩ := (ha t l).1 (SMap.find?_eq_some.2 h)
  exact ⟨_, rfl⟩

theorem pairsOf_fst : (pairsOf a).map (·.1) = a.keys := by
  unfold pairsOf SMap.keys
  have : ∀ l : List (Uuid × List Uuid), (∀ e ∈ l, ∃ d, e.2 = [d]) →
      (l.flatMap fun e => e.2.map fun d => (e.1, d)).map (·.1) = l.map (·.1) := by
    intro l
    induction l with
    | nil => simp
    | cons e l ih =>
      intro h
      obtain ⟨d, hd⟩ := h e (by simp)
      rw [List.flatMap_cons, List.map_append, ih (fun e' he' => h e' (by simp [he'])), hd]
      simp
  exact this _ (fun e he => entries_singleton ha he)

theorem nodup_pairsOf : (pairsOf a).Nodup := by
  refine List.Nodup.of_map (f := (·.1)) ?_
  rw [pairsOf_fst ha]
  exact a.nodup_keys

end Pairs

/-- a list of names and the corresponding set of cells have the same sums -/
theorem sum_names {scores : ScoreMap} {l : List (Uuid × Uuid)} (hl : l.Nodup)
    {F : Finset (Fin (trackSet scores).size × Fin (detSet scores).size)}
    (h : ∀ x, x ∈ l ↔ ∃ p ∈ F, name scores p = x) {M : Type} [AddCommMonoid M]
    (f : Uuid × Uuid → M) : (l.map f).sum = ∑ p ∈ F, f (name scores p) := by
  classical
  rw [← List.sum_toFinset f hl]
  have : l.toFinset = F.image (name scores) := by
    ext x; simp [h]
  rw [this, sum_image (fun p _ q _ he => name_inj he)]

theorem length_names {scores : ScoreMap} {l : List (Uuid × Uuid)} (hl : l.Nodup)
    {F : Finset (Fin (trackSet scores).size × Fin (detSet scores).size)}
    (h : ∀ x, x ∈ l ↔ ∃ p ∈ F, name scores p = x) : l.length = F.card := by
  classical
  rw [← List.toFinset_card_of_nodup hl]
  have : l.toFinset = F.image (name scores) := by
    ext x; simp [h]
  rw [this, card_image_of_injective _ name_inj]

/-- the cells of a one-to-one list of occurring pairs -/
theorem cells_of {scores : ScoreMap} {l : List (Uuid × Uuid)} (hl : OneToOne l)
    (hm : ∀ x ∈ l, ScoredTrack scores x.1 ∧ ScoredDetection scores x.2) :
    ∃ F : Finset (Fin (trackSet scores).size × Fin (detSet scores).size),
      IsMatching F ∧ ∀ x, x ∈ l ↔ ∃ p ∈ F, name scores p = x := by
  classical
  refine ⟨univ.filter (fun p => name scores p ∈ l), ?_, ?_⟩
  · intro p hp q hq h
    simp only [mem_filter, mem_univ, true_and] at hp hq
    rcases h with h | h
    · exact name_inj (List.inj_on_of_nodup_map hl.1 hp hq (by simp [name, h]))
    · exact name_inj (List.inj_on_of_nodup_map hl.2 hp hq (by simp [name, h]))
  · intro x
    constructor
    · intro hx
      obtain ⟨h1, h2⟩ := hm x hx
      obtain ⟨i, hi⟩ := mem_iff_nth.1 (mem_trackSet.2 h1)
      obtain ⟨j, hj⟩ := mem_iff_nth.1 (mem_detSet.2 h2)
      have hn : name scores (i, j) = x := Prod.ext hi hj
      exact ⟨(i, j), by simp [hn, hx], hn⟩
    · rintro ⟨p, hp, rfl⟩
      simpa using hp

/-! ## Summary of a successful call -/

theorem trackSet_size_le (scores : ScoreMap) : (trackSet scores).size ≤ scores.entries.length := by
  rw [trackSet_size]
  unfold trackCount
  exact (List.toFinset_card_le _).trans (by simp)

theorem detSet_size_le (scores : ScoreMap) : (detSet scores).size ≤ scores.entries.length := by
  rw [detSet_size]
  unfold detectionCount
  exact (List.toFinset_card_le _).trans (by simp)

theorem Spec.IsOptimalSolver.perm {solve : Solver} (h : IsOptimalSolver solve) : IsPermSolver solve := by
  intro n c
  obtain ⟨σ, hσ, _⟩ := h n c
  exact ⟨σ, hσ⟩

theorem gnn_cases {solve : Solver} (hs : IsPermSolver solve) {scores : ScoreMap}
    (hbig : scores.entries.length < 2 ^ 64) :
    (costMatrix ⟨(trackSet scores).size, (detSet scores).size, cell scores⟩).IsUb ∧
      (gnnAssociator solve scores).IsUb ∨
    ∃ a mx c σ, gnnAssociator solve scores = .ok a ∧
      dlibMax ⟨(trackSet scores).size, (detSet scores).size, cell scores⟩ = .ok mx ∧
      (∀ i j, costOf mx (cell scores i j) = .ok (c i j)) ∧
      solve _ (padded c intLowest) = (List.ofFn fun i => ((σ i).1 : ℤ)) ∧
      ∀ t l, a.find? t = some l ↔
        ∃ p ∈ matchOf σ, (trackSet scores).nth p.1 = t ∧ l = [(detSet scores).nth p.2] := by
  rcases costMatrix_cases ⟨(trackSet scores).size, (detSet scores).size, cell scores⟩ with
    h | ⟨mx, c, hmx, hc, hcell⟩
  · exact .inl ⟨h, gnn_ub_of_cost h⟩
  · obtain ⟨σ, hσ⟩ := hs _ (padded c intLowest)
    obtain ⟨a, ha, hf⟩ := gnn_of_cost hc hσ (by
      have := trackSet_size_le scores
      have := detSet_size_le scores
      omega)
    exact .inr ⟨a, mx, c, σ, ha, hmx, hcell, hσ, hf⟩

theorem gnn_ok {solve : Solver} (hs : IsPermSolver solve) {scores : ScoreMap}
    (hbig : scores.entries.length < 2 ^ 64) {a : AssociationMap}
    (h : gnnAssociator solve scores = .ok a) :
    ∃ mx c σ, dlibMax ⟨(trackSet scores).size, (detSet scores).size, cell scores⟩ = .ok mx ∧
      (∀ i j, costOf mx (cell scores i j) = .ok (c i j)) ∧
      solve _ (padded c intLowest) = (List.ofFn fun i => ((σ i).1 : ℤ)) ∧
      ∀ t l, a.find? t = some l ↔
        ∃ p ∈ matchOf σ, (trackSet scores).nth p.1 = t ∧ l = [(detSet scores).nth p.2] := by
  rcases gnn_cases hs hbig with ⟨_, h'⟩ | ⟨a', mx, c, σ, h', rest⟩
  · rw [h] at h'; exact absurd h' (by simp)
  · rw [h] at h'; cases h'
    exact ⟨mx, c, σ, rest⟩

theorem ofFn_perm_inj {n : ℕ} {σ τ : Equiv.Perm (Fin n)}
    (h : (List.ofFn fun i => ((σ i).1 : ℤ)) = List.ofFn fun i => ((τ i).1 : ℤ)) : σ = τ := by
  have := List.ofFn_injective h
  ext i
  have := congrFun this i
  exact_mod_cast this

/-- in addition, the total cost is maximal -/
theorem gnn_ok_optimal {solve : Solver} (hs : IsOptimalSolver solve) {scores : ScoreMap}
    (hbig : scores.entries.length < 2 ^ 64) {a : AssociationMap}
    (h : gnnAssociator solve scores = .ok a) :
    ∃ (mx : FP) (c : Fin (trackSet scores).size → Fin (detSet scores).size → ℤ)
      (σ : Equiv.Perm (Fin (max (trackSet scores).size (detSet scores).size))),
      dlibMax ⟨(trackSet scores).size, (detSet scores).size, cell scores⟩ = .ok mx ∧
      (∀ i j, costOf mx (cell scores i j) = .ok (c i j)) ∧
      (∀ t l, a.find? t = some l ↔
        ∃ p ∈ matchOf σ, (trackSet scores).nth p.1 = t ∧ l = [(detSet scores).nth p.2]) ∧
      ((∀ i j, 0 ≤ c i j) → ∀ M, IsMatching M →
        ∑ p ∈ M, c p.1 p.2 ≤ ∑ p ∈ matchOf σ, c p.1 p.2) := by
  obtain ⟨mx, c, σ, h1, h2, h3, h4⟩ := gnn_ok hs.perm hbig h
  refine ⟨mx, c, σ, h1, h2, h4, fun hc M hM => ?_⟩
  obtain ⟨σ', hσ', hopt⟩ := hs _ (padded c intLowest)
  rw [h3] at hσ'
  have := ofFn_perm_inj hσ'
  subst this
  exact optimal_matching hc hopt M hM

theorem cell_of_scored {scores : ScoreMap} {p : Fin (trackSet scores).size × Fin (detSet scores).size}
    {s : FP} (h : scores.find? (mkPair (name scores p).1 (name scores p).2) = some s) :
    cell scores p.1 p.2 = s := by
  unfold cell
  simp only [name] at h
  rw [h]

theorem cell_of_missing {scores : ScoreMap} {p : Fin (trackSet scores).size × Fin (detSet scores).size}
    (h : scores.find? (mkPair (name scores p).1 (name scores p).2) = none) :
    cell scores p.1 p.2 = FP.fltMax := by
  unfold cell
  simp only [name] at h
  rw [h]

theorem scoredTrack_nth {scores : ScoreMap} (i : Fin (trackSet scores).size) :
    ScoredTrack scores ((trackSet scores).nth i) :=
  mem_trackSet.1 (mem_iff_nth.2 ⟨i, rfl⟩)

theorem scoredDetection_nth {scores : ScoreMap} (i : Fin (detSet scores).size) :
    ScoredDetection scores ((detSet scores).nth i) :=
  mem_detSet.1 (mem_iff_nth.2 ⟨i, rfl⟩)

/-- all elements of the score matrix are finite and non-negative -/
theorem cell_fin {scores : ScoreMap} (hr : ScoresIn scores fltMaxQ)
    (i : Fin (trackSet scores).size) (j : Fin (detSet scores).size) :
    ∃ q, cell scores i j = .fin q ∧ 0 ≤ q ∧ q ≤ fltMaxQ := by
  cases h : scores.find? (mkPair (name scores (i, j)).1 (name scores (i, j)).2) with
  | none =>
    refine ⟨fltMaxQ, cell_of_missing (p := (i, j)) h, ?_, le_rfl⟩
    unfold fltMaxQ; norm_num
  | some s =>
    obtain ⟨q, rfl, h0, h1⟩ := hr _ _ h
    exact ⟨q, cell_of_scored (p := (i, j)) h, h0, h1⟩

/-- what a successful cost computation says about the scores -/
theorem costs_eq {scores : ScoreMap} (hr : ScoresIn scores fltMaxQ) {mx : FP}
    {c : Fin (trackSet scores).size → Fin (detSet scores).size → ℤ}
    (hmx : dlibMax ⟨(trackSet scores).size, (detSet scores).size, cell scores⟩ = .ok mx)
    (hc : ∀ i j, costOf mx (cell scores i j) = .ok (c i j)) :
    ∃ m, mx = .fin m ∧ 0 < m ∧ (∃ i j, cell scores i j = .fin m) ∧
      ∀ i j q, cell scores i j = .fin q → 0 ≤ q ∧ q ≤ m ∧ c i j = costQ m q := by
  have hT : 0 < (trackSet scores).size := by
    by_contra h
    rw [dlibMax_empty (.inl (by show (trackSet scores).size = 0; omega))] at hmx
    simp at hmx
  have hD : 0 < (detSet scores).size := by
    by_contra h
    rw [dlibMax_empty (.inr (by show (detSet scores).size = 0; omega))] at hmx
    simp at hmx
  obtain ⟨m, h1, h2, h3⟩ := dlibMax_fin
    (m := ⟨(trackSet scores).size, (detSet scores).size, cell scores⟩)
    (i₀ := ⟨0, hT⟩) (j₀ := ⟨0, hD⟩)
    (fun i j => by obtain ⟨q, hq, _⟩ := cell_fin hr i j; exact ⟨q, hq⟩)
  rw [hmx] at h1
  cases h1
  have hnn : ∀ i j q, cell scores i j = .fin q → 0 ≤ q := by
    intro i j q hq
    obtain ⟨q', hq', h0, _⟩ := cell_fin hr i j
    rw [hq] at hq'; cases hq'; exact h0
  have hpos : 0 < m := by
    obtain ⟨i, j, hij⟩ := h3
    rcases (hnn i j m hij).eq_or_lt with h0 | h0
    · have hu := costOf_zero_zero
      have := hc i j
      have hij' : cell scores i j = .fin m := hij
      rw [hij', ← h0] at this
      rw [this] at hu
      exact absurd hu (by simp)
    · exact h0
  refine ⟨m, rfl, hpos, h3, fun i j q hq => ?_⟩
  have hq0 := hnn i j q hq
  have hqm := h2 i j q hq
  refine ⟨hq0, hqm, ?_⟩
  have := hc i j
  rw [hq, costOf_eq hpos hq0 hqm] at this
  exact (Outcome.ok.inj this).symm

end Mot
