import Verif.Spec.Lifetime
import Verif.Proofs.TrackObs
/-!
# Lemmas about the life of one track
-/

namespace Mot

open Spec Manager

theorem net_nil : net [] = 0 := rfl

theorem net_append (l l' : List Bool) : net (l ++ l') = net l + net l' := by
  simp only [net, List.count_append, Nat.cast_add]; omega

theorem net_singleton (b : Bool) : net [b] = if b then 1 else -1 := by
  cases b <;> rfl

/-- where a window of updates starts: the count at the beginning, or the cap -/
def windowBase (c promo : ℕ) (p : List Bool) : ℤ := if p = [] then c else promo

theorem life_snoc (promo removal : ℕ) (x : Option (ℕ × Bool)) (l : List Bool) (b : Bool) :
    life promo removal x (l ++ [b]) = lifeStep promo removal (life promo removal x l) b := by
  simp only [life, List.foldl_append, List.foldl_cons, List.foldl_nil]

/-- the count after a sequence of updates is the least over all windows that end now -/
theorem life_spec {promo removal c : ℕ} {f : Bool} (hc : c ≤ promo) (h1 : 1 ≤ c) (l : List Bool) :
    ((life promo removal (some (c, f)) l).isSome ↔ ∀ p w, p ++ w <+: l → p ++ w ≠ [] →
      (removal : ℤ) < windowBase c promo p + net w) ∧
    ∀ c' f', life promo removal (some (c, f)) l = some (c', f') →
      1 ≤ c' ∧ c' ≤ promo ∧
      (∀ p w, l = p ++ w → (c' : ℤ) ≤ windowBase c promo p + net w) ∧
      (∃ p w, l = p ++ w ∧ (c' : ℤ) = windowBase c promo p + net w) ∧
      (f' = true ↔ f = true ∨ ∃ w, w ≠ [] ∧ w <+: l ∧ (promo : ℤ) ≤ c + net w) := by
  induction l using List.reverseRecOn with
  | nil =>
    refine ⟨⟨fun _ p w h hne => absurd (List.prefix_nil.1 h) hne, fun _ => rfl⟩, ?_⟩
    rintro c' f' h
    simp only [life, List.foldl_nil, Option.some.injEq, Prod.mk.injEq] at h
    obtain ⟨rfl, rfl⟩ := h
    refine ⟨h1, hc, ?_, ⟨[], [], rfl, by simp [windowBase, net_nil]⟩, ?_⟩
    · intro p w h
      obtain ⟨rfl, rfl⟩ := List.append_eq_nil_iff.1 h.symm
      simp [windowBase, net_nil]
    · constructor
      · exact .inl
      · rintro (h | ⟨w, hw, h, -⟩)
        · exact h
        · exact absurd (List.prefix_nil.1 h) hw
  | append_singleton l b ih =>
    obtain ⟨ih1, ih2⟩ := ih
    rw [life_snoc]
    rcases hx : life promo removal (some (c, f)) l with _ | ⟨c₀, f₀⟩
    · rw [hx] at ih1
      refine ⟨?_, by simp [lifeStep]⟩
      simp only [lifeStep, Option.bind_none, Option.isSome_none, Bool.false_eq_true, false_iff]
      intro h
      have := ih1.2 fun p w hp hne => h p w (hp.trans (List.prefix_append _ _)) hne
      simp at this
    · obtain ⟨g1, g2, g3, ⟨p₀, w₀, hl₀, g4⟩, g5⟩ := ih2 c₀ f₀ hx
      rw [hx] at ih1
      have halive := ih1.1 rfl
      set c₁ := if b then min (c₀ + 1) promo else c₀ - 1 with hc₁
      have hc₁' : (c₁ : ℤ) = min ((c₀ : ℤ) + net [b]) promo := by
        rw [net_singleton, hc₁]
        cases b
        · simp only [Bool.false_eq_true, if_false]; omega
        · simp only [if_true]; push_cast; rfl
      -- the new count is the least over all windows
      have hle : ∀ p w, l ++ [b] = p ++ w → (c₁ : ℤ) ≤ windowBase c promo p + net w := by
        intro p w h
        rcases List.eq_nil_or_concat w with rfl | ⟨w', b', rfl⟩
        · rw [List.append_nil] at h
          subst h
          simp only [windowBase, List.append_eq_nil_iff, List.cons_ne_self, and_false, if_false,
            net_nil]
          omega
        · rw [List.concat_eq_append] at h ⊢
          rw [← List.append_assoc] at h
          obtain ⟨rfl, h'⟩ := List.append_inj' h rfl
          obtain rfl : b = b' := by simpa using h'
          have := g3 p w' rfl
          rw [net_append]
          omega
      have hex : ∃ p w, l ++ [b] = p ++ w ∧ (c₁ : ℤ) = windowBase c promo p + net w := by
        by_cases hcap : (c₀ : ℤ) + net [b] ≤ promo
        · refine ⟨p₀, w₀ ++ [b], by rw [hl₀, List.append_assoc], ?_⟩
          rw [net_append]; omega
        · refine ⟨l ++ [b], [], by simp, ?_⟩
          simp only [windowBase, List.append_eq_nil_iff, List.cons_ne_self, and_false, if_false,
            net_nil]
          omega
      have hstep : lifeStep promo removal (some (c₀, f₀)) b =
          if c₁ ≤ removal then none else some (c₁, f₀ || decide (promo ≤ c₁)) := rfl
      rw [hstep]
      constructor
      · constructor
        · intro h p w hp hne
          have hlt : removal < c₁ := by
            by_contra hle'
            rw [if_pos (by omega)] at h
            simp at h
          rcases List.prefix_concat_iff.1 hp with hp | hp
          · have := hle p w hp.symm
            omega
          · exact halive p w hp hne
        · intro h
          obtain ⟨p, w, hpw, he⟩ := hex
          have := h p w (hpw ▸ List.prefix_rfl) (by rw [← hpw]; simp)
          rw [if_neg (by omega)]
          rfl
      · intro c' f' h
        by_cases hrem : c₁ ≤ removal
        · rw [if_pos hrem] at h; cases h
        · rw [if_neg hrem] at h
          simp only [Option.some.injEq, Prod.mk.injEq] at h
          obtain ⟨rfl, rfl⟩ := h
          refine ⟨by omega, by omega, hle, hex, ?_⟩
          rw [Bool.or_eq_true, decide_eq_true_eq, g5]
          constructor
          · rintro ((h | ⟨w, hw, hp, hge⟩) | h)
            · exact .inl h
            · exact .inr ⟨w, hw, hp.trans (List.prefix_append _ _), hge⟩
            · refine .inr ⟨l ++ [b], by simp, List.prefix_rfl, ?_⟩
              have := hle [] (l ++ [b]) rfl
              simp only [windowBase, if_true] at this
              omega
          · rintro (h | ⟨w, hw, hp, hge⟩)
            · exact .inl (.inl h)
            · rcases List.prefix_concat_iff.1 hp with rfl | hp
              · by_cases hearly : ∃ w, w ≠ [] ∧ w <+: l ∧ (promo : ℤ) ≤ c + net w
                · exact .inl (.inr hearly)
                · right
                  push Not at hearly
                  obtain ⟨p, w, hpw, he⟩ := hex
                  have hsum : net (l ++ [b]) = net p + net w := by rw [hpw, net_append]
                  by_cases hp0 : p = []
                  · subst hp0
                    simp only [windowBase, if_true, net_nil] at he hsum
                    omega
                  · simp only [windowBase, if_neg hp0] at he
                    rcases List.prefix_concat_iff.1 (hpw ▸ List.prefix_append p w :
                      p <+: l ++ [b]) with hpe | hpe
                    · rw [← hpe] at hsum
                      omega
                    · have := hearly p hp0 hpe
                      omega
              · exact .inl (.inr ⟨w, hw, hp, hge⟩)

/-! ## Connection with the table -/

section
variable {τ S C : Type} [TrackOps τ S C]

/-- count and confirmed flag of an entry -/
def entryLife (e : Option (Spec.Entry τ)) : Option (ℕ × Bool) := e.map fun e => (e.count, e.confirmed)

omit [TrackOps τ S C] in
theorem entryLife_update (promo removal : ℕ) (b : Bool) (x : Option (Spec.Entry τ)) :
    entryLife (x.bind (Table.updateEntry promo removal b)) = lifeStep promo removal (entryLife x) b := by
  cases x with
  | none => rfl
  | some e =>
    simp only [entryLife, Option.bind_some, Option.map_some, lifeStep, Table.updateEntry,
      Table.newCount]
    split <;> split <;> rfl

theorem entryLife_modify (T : Table τ) (u v : Uuid) (f : τ → τ × Outcome Unit) :
    entryLife ((T.modifyTrack v f).1.entry u) = entryLife (T.entry u) ∧
    (T.modifyTrack v f).1.promo = T.promo ∧ (T.modifyTrack v f).1.removal = T.removal := by
  unfold Table.modifyTrack
  rcases he : T.entry v with _ | e
  · exact ⟨rfl, rfl, rfl⟩
  · refine ⟨?_, rfl, rfl⟩
    simp only
    split
    · next h => subst h; rw [he]; rfl
    · rfl

theorem run_life (u : Uuid) (ops : List (Op τ S C)) (hk : ∀ op ∈ ops, Op.Keeps u op) (T : Table τ) :
    entryLife ((Table.run ops T).entry u) =
      life T.promo T.removal (entryLife (T.entry u)) (seenFlags u ops) ∧
    (Table.run ops T).promo = T.promo ∧ (Table.run ops T).removal = T.removal := by
  induction ops generalizing T with
  | nil => exact ⟨rfl, rfl, rfl⟩
  | cons op ops ih =>
    obtain ⟨i1, i2, i3⟩ := ih (fun o ho => hk o (by simp [ho])) (T.step op).1
    have hop := hk op (by simp)
    have key : (T.step op).1.promo = T.promo ∧ (T.step op).1.removal = T.removal := by
      cases op with
      | add t => simp only [Table.step]; split <;> exact ⟨rfl, rfl⟩
      | update a => exact ⟨rfl, rfl⟩
      | setPromotion p => exact hop.elim
      | setRemoval r => exact hop.elim
      | updateTrack v ts s c => exact (entryLife_modify T u v _).2
      | updateTrackFrom v src => exact (entryLife_modify T u v _).2
    refine ⟨?_, i2.trans key.1, i3.trans key.2⟩
    show entryLife ((Table.run ops (T.step op).1).entry u) = _
    rw [i1, key.1, key.2]
    cases op with
    | add t =>
      have : (T.step (.add t : Op τ S C)).1.entry u = T.entry u := by
        simp only [Table.step]
        split
        · rfl
        · simp only [if_neg (Ne.symm hop)]
      rw [this]; rfl
    | update a =>
      show life _ _ (entryLife ((T.entry u).bind _)) _ = life _ _ _ (decide (u ∈ a.keys) :: seenFlags u ops)
      rw [entryLife_update]
      rfl
    | setPromotion p => exact hop.elim
    | setRemoval r => exact hop.elim
    | updateTrack v ts s c =>
      show life _ _ (entryLife ((T.modifyTrack v _).1.entry u)) _ = _
      rw [(entryLife_modify T u v _).1]; rfl
    | updateTrackFrom v src =>
      show life _ _ (entryLife ((T.modifyTrack v _).1.entry u)) _ = _
      rw [(entryLife_modify T u v _).1]; rfl

/-! ## Non-interference -/

/-- effect of a call on the entry of one UUID -/
def localStep (l : Local τ S C) (x : ℕ × ℕ × Option (Spec.Entry τ)) :
    (ℕ × ℕ × Option (Spec.Entry τ)) × Outcome Unit :=
  let (p, r, e) := x
  match l with
  | .add t =>
    match e with
    | some _ => (x, .throw .logicError)
    | none => ((p, r, some ⟨t, 1, false⟩), .ok ())
  | .update b => ((p, r, e.bind (Table.updateEntry p r b)), .ok ())
  | .setPromotion q =>
    ((q.toNat, r, e.map fun e => { e with confirmed := decide (q.toNat ≤ e.count) }), .ok ())
  | .setRemoval q =>
    ((p, q.toNat, e.bind fun e => if e.count ≤ q.toNat then none else some e), .ok ())
  | .set ts s c =>
    match e with
    | none => (x, .throw .outOfRange)
    | some e => ((p, r, some { e with track := (Table.setEstimate ts s c e.track).1 }),
        (Table.setEstimate ts s c e.track).2)
  | .copy src =>
    match e with
    | none => (x, .throw .outOfRange)
    | some e => ((p, r, some { e with track := (Table.copyEstimate (S := S) (C := C) src e.track).1 }),
        (Table.copyEstimate (S := S) (C := C) src e.track).2)

/-- what the table shows about one UUID -/
def tableAt (u : Uuid) (T : Table τ) : ℕ × ℕ × Option (Spec.Entry τ) := (T.promo, T.removal, T.entry u)

theorem step_local (u : Uuid) (op : Op τ S C) (T : Table τ) :
    match localView u op with
    | none => tableAt u (T.step op).1 = tableAt u T
    | some l => (tableAt u (T.step op).1, (T.step op).2) = localStep l (tableAt u T) := by
  cases op with
  | add t =>
    simp only [localView]
    by_cases h : TrackOps.uuid t = u
    · subst h
      rw [if_pos rfl]
      simp only [Table.step, tableAt, localStep]
      rcases he : T.entry (TrackOps.uuid t) with _ | e
      · simp only [he, if_true]
      · simp only [he]
    · rw [if_neg h]
      simp only [Table.step, tableAt]
      rcases he : T.entry (TrackOps.uuid t) with _ | e
      · simp only [if_neg (Ne.symm h)]
      · simp only
  | update a => rfl
  | setPromotion p => rfl
  | setRemoval r => rfl
  | updateTrack v ts s c =>
    simp only [localView]
    by_cases h : v = u
    · subst h
      rw [if_pos rfl]
      simp only [Table.step, Table.modifyTrack, tableAt, localStep]
      rcases he : T.entry v with _ | e
      · simp only [he]
      · simp only [he, if_true]
    · rw [if_neg h]
      simp only [Table.step, Table.modifyTrack, tableAt]
      rcases he : T.entry v with _ | e
      · simp only
      · simp only [if_neg (Ne.symm h)]
  | updateTrackFrom v src =>
    simp only [localView]
    by_cases h : v = u
    · subst h
      rw [if_pos rfl]
      simp only [Table.step, Table.modifyTrack, tableAt, localStep]
      rcases he : T.entry v with _ | e
      · simp only [he]
      · simp only [he, if_true]
    · rw [if_neg h]
      simp only [Table.step, Table.modifyTrack, tableAt]
      rcases he : T.entry v with _ | e
      · simp only
      · simp only [if_neg (Ne.symm h)]

/-- effect of a local history -/
def localRun : List (Local τ S C) → ℕ × ℕ × Option (Spec.Entry τ) →
    (ℕ × ℕ × Option (Spec.Entry τ)) × List (Local τ S C × Outcome Unit)
  | [], x => (x, [])
  | l :: ls, x =>
    let y := localStep l x
    ((localRun ls y.1).1, (l, y.2) :: (localRun ls y.1).2)

theorem run_local (u : Uuid) (ops : List (Op τ S C)) (T : Table τ) :
    (tableAt u (Table.run ops T), localHistory u ops (Table.outcomes ops T)) =
      localRun (ops.filterMap (localView u)) (tableAt u T) := by
  induction ops generalizing T with
  | nil => rfl
  | cons op ops ih =>
    have h1 := step_local u op T
    have h2 := ih (T.step op).1
    show (tableAt u (Table.run ops (T.step op).1),
      localHistory u (op :: ops) ((T.step op).2 :: Table.outcomes ops (T.step op).1)) = _
    rcases hv : localView u op with _ | l
    · rw [hv] at h1
      simp only at h1
      rw [List.filterMap_cons_none hv, ← h1, ← h2]
      congr 1
      simp [localHistory, hv]
    · rw [hv] at h1
      simp only at h1
      rw [List.filterMap_cons_some hv]
      simp only [localRun, ← h1, ← h2]
      congr 1
      simp [localHistory, hv]

theorem table_of_agreeOn {n n' : ℕ} {m m' : Manager τ} {T T' : Table τ} (h : Rel n m T)
    (h' : Rel n' m' T') (hn : n + 1 < 2 ^ 64) (hn' : n' + 1 < 2 ^ 64) {u : Uuid}
    (ha : AgreeOn u m m') : tableAt u T = tableAt u T' := by
  unfold tableAt
  rw [← h.promo, ← h'.promo, ← h.removal, ← h'.removal, ha.promo, ha.removal]
  congr 2
  rcases he : T.entry u with _ | e
  · rcases he' : T'.entry u with _ | e'
    · rfl
    · have := (ha.track e'.track).2 (h'.hasTrack.2 ⟨e', he', rfl⟩)
      obtain ⟨e, h1, -⟩ := h.hasTrack.1 this
      rw [he] at h1; cases h1
  · obtain ⟨e', he', ht⟩ := h'.hasTrack.1 ((ha.track e.track).1 (h.hasTrack.2 ⟨e, he, rfl⟩))
    rw [he']
    have hc := ha.counter
    rw [h.counter_some hn he, h'.counter_some hn' he'] at hc
    have hf := ha.confirmed
    rw [h.confirmed, h'.confirmed, he, he'] at hf
    simp only [Option.some.injEq, exists_eq_left'] at hf
    have hf' := Bool.eq_iff_iff.2 hf
    cases e; cases e'
    simp only at hc hf' ht
    subst hc hf' ht
    rfl

theorem agreeOn_of_table {n n' : ℕ} {m m' : Manager τ} {T T' : Table τ} (h : Rel n m T)
    (h' : Rel n' m' T') (hn : n + 1 < 2 ^ 64) (hn' : n' + 1 < 2 ^ 64) {u : Uuid}
    (ha : tableAt u T = tableAt u T') : AgreeOn u m m' := by
  simp only [tableAt, Prod.mk.injEq] at ha
  obtain ⟨hp, hr, he⟩ := ha
  refine ⟨fun t => ?_, ?_, ?_, ?_, ?_, ?_⟩
  · rw [h.hasTrack, h'.hasTrack, he]
  · rcases hx : T'.entry u with _ | e
    · rw [h.counter_none (he.trans hx), h'.counter_none hx]
    · rw [h.counter_some hn (he.trans hx), h'.counter_some hn' hx]
  · rw [h.confirmed, h'.confirmed, he]
  · rw [h.tentative, h'.tentative, he]
  · exact BitVec.eq_of_toNat_eq (by rw [h.promo, h'.promo, hp])
  · exact BitVec.eq_of_toNat_eq (by rw [h.removal, h'.removal, hr])

/-! ## Cycles as histories -/

omit [TrackOps τ S C] in
theorem Reordered.trans' {m m₁ m₂ : Manager τ} (h : m.Reordered m₁) (h' : m₁.Reordered m₂) :
    m.Reordered m₂ :=
  ⟨h'.promo.trans h.promo, h'.removal.trans h.removal, h.tracks.trans h'.tracks,
    h.statuses.trans h'.statuses, h.occ.trans h'.occ⟩

theorem runs_append {m m₁ m₂ : Manager τ} {ops ops' : List (Op τ S C)} {os os' : List (Outcome Unit)}
    (h : Runs m ops os m₁) (h' : Runs m₁ ops' os' m₂) : ∃ os'', Runs m (ops ++ ops') os'' m₂ := by
  induction h with
  | nil h =>
    cases h' with
    | nil h2 => exact ⟨_, .nil (Reordered.trans' h h2)⟩
    | cons h2 h3 => exact ⟨_, .cons (Reordered.trans' h h2) h3⟩
  | cons h _ ih =>
    obtain ⟨os'', h2⟩ := ih h'
    exact ⟨_, .cons h h2⟩

theorem runs_forEach {α : Type} (f : α → Act (Manager τ) Unit) (op : α → Op τ S C)
    (hop : ∀ x m, Manager.step (op x) m = f x m) (l : List α) {m m' : Manager τ}
    (h : Act.forEach f l m = (m', .ok ())) : ∃ os, Runs m (l.map op) os m' := by
  induction l generalizing m with
  | nil =>
    cases h
    exact ⟨_, .nil (Reordered.refl _)⟩
  | cons x l ih =>
    rw [Act.forEach] at h
    rcases hx : f x m with ⟨s, _ | _ | _⟩
    · rw [hx] at h
      obtain ⟨os, h2⟩ := ih h
      rw [← hop] at hx
      have h3 : Runs (Manager.step (op x) m).1 (l.map op) os m' := by rw [hx]; exact h2
      exact ⟨_, .cons (Reordered.refl m) h3⟩
    · rw [hx] at h; cases h
    · rw [hx] at h; cases h

/-- a completed cycle is a history with one update -/
theorem cycle_runs {solve : Solver} {metric : τ → τ → Option FP} {gate : FP → Bool}
    {visitor : τ → τ → Outcome τ} {ds : List τ} {m m₁ : Manager τ} {a : AssociationMap}
    (h : cycle solve metric gate visitor ds m = (m₁, .ok a)) :
    ∃ (fused : List τ) (os : List (Outcome Unit)),
      Runs m (fused.map (fun f => (.updateTrackFrom (TrackOps.uuid f) f : Op τ S C)) ++ [.update a])
        os m₁ := by
  unfold cycle cycleOn at h
  split at h
  · cases h
  · cases h
  · split at h
    · cases h
    · cases h
    · next b _ _ fused _ =>
      unfold Act.andThen at h
      rcases hx : storeFused fused m with ⟨s, _ | _ | _⟩
      · rw [hx] at h
        simp only at h
        rcases hy : Manager.updateTrackLists b s with ⟨s', _ | _ | _⟩
        · rw [hy] at h
          simp only [Prod.mk.injEq, Outcome.ok.injEq] at h
          obtain ⟨rfl, rfl⟩ := h
          obtain ⟨os, h1⟩ := runs_forEach (S := S) (C := C) _
            (fun f => .updateTrackFrom (TrackOps.uuid f) f) (fun _ _ => rfl) fused hx
          have h2 : Runs s [(.update b : Op τ S C)] [(Manager.step (.update b : Op τ S C) s).2]
              (Manager.step (.update b : Op τ S C) s).1 :=
            .cons (Reordered.refl _) (.nil (Reordered.refl _))
          have h3 : (Manager.step (.update b : Op τ S C) s).1 = s' := by
            show (Manager.updateTrackLists b s).1 = s'
            rw [hy]
          rw [h3] at h2
          obtain ⟨os'', h4⟩ := runs_append h1 h2
          exact ⟨fused, os'', h4⟩
        · rw [hy] at h; cases h
        · rw [hy] at h; cases h
      · rw [hx] at h; cases h
      · rw [hx] at h; cases h

omit [TrackOps τ S C] in
theorem seenFlags_append (u : Uuid) (l l' : List (Op τ S C)) :
    seenFlags u (l ++ l') = seenFlags u l ++ seenFlags u l' := by
  simp only [seenFlags, List.filterMap_append]

omit [TrackOps τ S C] in
theorem numUpdates_eq (u : Uuid) (l : List (Op τ S C)) :
    numUpdates l = (seenFlags u l).length := by
  induction l with
  | nil => rfl
  | cons x l ih =>
    simp only [seenFlags] at ih
    cases x <;> simp [numUpdates, ih, Op.updates, seenFlags, Nat.add_comm]

theorem frames_runs {visitor : τ → τ → Outcome τ} {make : τ → τ} {m m' : Manager τ}
    {l : List (List τ × AssociationMap)} (h : Frames visitor make m l m') :
    ∃ (ops : List (Op τ S C)) (os : List (Outcome Unit)), Runs m ops os m' ∧
      (∀ u, seenFlags u ops = l.map fun x => decide (u ∈ x.2.keys)) ∧
      ∀ u, (∀ x ∈ l, ∀ d ∈ x.1, TrackOps.uuid (make d) ≠ u) → ∀ op ∈ ops, Op.Keeps u op := by
  induction h with
  | nil => exact ⟨[], [], .nil (Reordered.refl _), fun _ => rfl, by simp⟩
  | cons h1 h2 _ ih =>
    next m m₁ m₂ m' solve metric gate ds a l _ =>
    obtain ⟨ops, os, r3, f3, k3⟩ := ih
    obtain ⟨fused, os1, r1⟩ := cycle_runs (S := S) (C := C) h1
    obtain ⟨os2, r2⟩ := runs_forEach (S := S) (C := C) _ (fun d => .add (make d)) (fun _ _ => rfl) _ h2
    obtain ⟨os12, r12⟩ := runs_append r1 r2
    obtain ⟨os', r⟩ := runs_append r12 r3
    refine ⟨_, os', r, ?_, ?_⟩
    · intro u
      simp only [seenFlags_append, f3, List.map_cons]
      have e1 : seenFlags u (fused.map fun f => (.updateTrackFrom (TrackOps.uuid f) f : Op τ S C)) = [] := by
        simp [seenFlags, List.filterMap_map]
      have e2 : ∀ l : List τ, seenFlags u (l.map fun d => (.add (make d) : Op τ S C)) = [] := by
        intro l
        simp [seenFlags, List.filterMap_map]
      rw [e1, e2]
      rfl
    · intro u hu op hop
      simp only [List.mem_append, List.mem_map, List.mem_singleton] at hop
      rcases hop with ((⟨f, -, rfl⟩ | rfl) | ⟨d, hd, rfl⟩) | hop
      · trivial
      · trivial
      · exact hu (ds, a) (by simp) d (List.mem_filter.1 hd).1
      · exact k3 u (fun x hx => hu x (by simp [hx])) op hop

end

end Mot
