import Verif.Spec.Thresholds
import Verif.Proofs.TrackManager
/-!
# Lemmas: comparing two managers
-/

namespace Mot

open Spec

variable {τ S C : Type} [TrackOps τ S C]

namespace Spec.Table

/-- what belongs to one table belongs to the other with at least the count; `eq`: same promotion threshold, so also the
status; `more`: the promotion threshold stays, so counts exceed it only if they are one -/
structure Le (eq more : Prop) (T T' : Table τ) : Prop where
  promo : T.promo ≤ T'.promo
  removal : T'.removal ≤ T.removal
  same : eq → T.promo = T'.promo
  one : ∀ u e, T'.entry u = some e → 1 ≤ e.count
  cap : more → ∀ u e, T.entry u = some e → e.count ≤ T.promo ∨ e.count = 1
  entry : ∀ u e, T.entry u = some e → ∃ e', T'.entry u = some e' ∧ e.count ≤ e'.count ∧
    (eq → e.confirmed = true → e'.confirmed = true)

theorem updateEntry_some {p r : ℕ} {b : Bool} {e f : Entry τ} (h : updateEntry p r b e = some f) :
    f.count = newCount p b e.count ∧ r < f.count ∧ f.confirmed = (e.confirmed || decide (p ≤ f.count)) := by
  unfold updateEntry at h
  simp only at h
  split at h
  · cases h
  · rename_i hr
    cases h
    exact ⟨rfl, not_le.1 hr, rfl⟩

theorem updateEntry_of {p r : ℕ} {b : Bool} {e : Entry τ} (h : r < newCount p b e.count) :
    updateEntry p r b e = some ⟨e.track, newCount p b e.count, e.confirmed || decide (p ≤ newCount p b e.count)⟩ := by
  unfold updateEntry
  simp only
  rw [if_neg (not_le.2 h)]

theorem newCount_mono {p p' c c' : ℕ} {b b' : Bool} (hp : p ≤ p') (hc : c ≤ c') (hb : b = true → b' = true) (h1 : 1 ≤ c')
    (hm : (b' = true → b = true) ∨ c ≤ p ∨ c = 1) (hr : 0 < newCount p b c) : newCount p b c ≤ newCount p' b' c' := by
  unfold newCount at *
  cases b with
  | true => rw [hb rfl]; simp only [if_true] at *; omega
  | false => cases b' <;> simp at * <;> omega

theorem newCount_le {p c : ℕ} {b : Bool} (h : c ≤ p ∨ c = 1) : newCount p b c ≤ p ∨ newCount p b c = 1 := by
  unfold newCount
  cases b <;> simp only [if_true, if_false, Bool.false_eq_true] <;> omega

theorem modify_fields (X : Table τ) (u : Uuid) (f : τ → τ × Outcome Unit) : (X.modifyTrack u f).1.promo = X.promo ∧
    (X.modifyTrack u f).1.removal = X.removal ∧
    ∀ v, ((X.modifyTrack u f).1.entry v).map (fun e => (e.count, e.confirmed)) =
      (X.entry v).map fun e => (e.count, e.confirmed) := by
  unfold modifyTrack
  cases hX : X.entry u with
  | none => exact ⟨rfl, rfl, fun v => rfl⟩
  | some e =>
    refine ⟨rfl, rfl, fun v => ?_⟩
    simp only
    split
    · rename_i hv; rw [hv, hX]; rfl
    · rfl

theorem modify_back {X : Table τ} {u v : Uuid} {f : τ → τ × Outcome Unit} {e : Entry τ}
    (h : (X.modifyTrack u f).1.entry v = some e) : ∃ a, X.entry v = some a ∧ a.count = e.count ∧ a.confirmed = e.confirmed := by
  have t := (modify_fields X u f).2.2 v
  rw [h] at t
  obtain ⟨a, a1, a2⟩ := Option.map_eq_some_iff.1 t.symm
  simp only [Prod.mk.injEq] at a2
  exact ⟨a, a1, a2⟩

theorem modify_forth {X : Table τ} {u v : Uuid} (f : τ → τ × Outcome Unit) {e : Entry τ}
    (h : X.entry v = some e) : ∃ a, (X.modifyTrack u f).1.entry v = some a ∧ a.count = e.count ∧ a.confirmed = e.confirmed := by
  have t := (modify_fields X u f).2.2 v
  rw [h] at t
  obtain ⟨a, a1, a2⟩ := Option.map_eq_some_iff.1 t
  simp only [Prod.mk.injEq] at a2
  exact ⟨a, a1, a2⟩

theorem Le.modify {eq more : Prop} {T T' : Table τ} (h : Le eq more T T') (u : Uuid) (f g : τ → τ × Outcome Unit) :
    Le eq more (T.modifyTrack u f).1 (T'.modifyTrack u g).1 := by
  obtain ⟨p1, r1, -⟩ := modify_fields T u f
  obtain ⟨p2, r2, -⟩ := modify_fields T' u g
  refine ⟨by rw [p1, p2]; exact h.promo, by rw [r1, r2]; exact h.removal, by rw [p1, p2]; exact h.same, ?_, ?_, ?_⟩
  · intro v e he
    obtain ⟨a, a1, a2, -⟩ := modify_back he
    rw [← a2]; exact h.one v a a1
  · intro hm v e he
    obtain ⟨a, a1, a2, -⟩ := modify_back he
    rw [p1, ← a2]; exact h.cap hm v a a1
  · intro v e he
    obtain ⟨a, a1, a2, a3⟩ := modify_back he
    obtain ⟨a', b1, b2, b3⟩ := h.entry v a a1
    obtain ⟨e', c1, c2, c3⟩ := modify_forth g b1
    refine ⟨e', c1, by omega, fun hq hc => ?_⟩
    rw [c3]
    exact b3 hq (by rw [a3]; exact hc)

theorem Le.update {eq more : Prop} {T T' : Table τ} (h : Le eq more T T') {a a' : AssociationMap}
    (ha : ∀ u ∈ a.keys, u ∈ a'.keys) (hm : more ∨ ∀ u ∈ a'.keys, u ∈ a.keys) :
    Le eq more (Table.step (.update a : Op τ S C) T).1 (Table.step (.update a' : Op τ S C) T').1 := by
  refine ⟨h.promo, h.removal, h.same, ?_, ?_, ?_⟩
  · intro u e he
    obtain ⟨e₀, -, h2⟩ := Option.bind_eq_some_iff.1 he
    have := (updateEntry_some h2).2.1
    omega
  · intro hmo u e he
    obtain ⟨e₀, h1, h2⟩ := Option.bind_eq_some_iff.1 he
    rw [(updateEntry_some h2).1]
    exact newCount_le (h.cap hmo u e₀ h1)
  · intro u e he
    obtain ⟨e₀, h1, h2⟩ := Option.bind_eq_some_iff.1 he
    obtain ⟨e₀', g1, g2, g3⟩ := h.entry u e₀ h1
    obtain ⟨k1, k2, k3⟩ := updateEntry_some h2
    have hc : newCount T.promo (decide (u ∈ a.keys)) e₀.count ≤ newCount T'.promo (decide (u ∈ a'.keys)) e₀'.count := by
      refine newCount_mono h.promo g2 (fun hb => decide_eq_true (ha u (of_decide_eq_true hb))) (h.one u _ g1) ?_ (by omega)
      exact hm.elim (fun hmo => Or.inr (h.cap hmo u e₀ h1)) fun hk => Or.inl fun hb => decide_eq_true (hk u (of_decide_eq_true hb))
    have hrem := h.removal
    refine ⟨_, Option.bind_eq_some_iff.2 ⟨e₀', g1, updateEntry_of (by omega)⟩, by rw [k1]; exact hc, fun hq hcf => ?_⟩
    rw [k3, Bool.or_eq_true, decide_eq_true_eq, k1] at hcf
    rw [Bool.or_eq_true, decide_eq_true_eq]
    refine hcf.imp (g3 hq) fun hle => ?_
    have hs := h.same hq
    omega

theorem Le.setRemoval {eq more : Prop} {T T' : Table τ} (h : Le eq more T T') {r r' : BitVec 64} (hr : r'.toNat ≤ r.toNat) :
    Le eq more (Table.step (.setRemoval r : Op τ S C) T).1 (Table.step (.setRemoval r' : Op τ S C) T').1 := by
  have key : ∀ (X : Table τ) (r : BitVec 64) u e, (Table.step (.setRemoval r : Op τ S C) X).1.entry u = some e →
      X.entry u = some e ∧ r.toNat < e.count := by
    intro X r u e he
    obtain ⟨e₀, h1, h2⟩ := Option.bind_eq_some_iff.1 he
    split at h2
    · cases h2
    · rename_i hlt
      cases h2
      exact ⟨h1, not_le.1 hlt⟩
  refine ⟨h.promo, hr, h.same, fun u e he => h.one u e (key _ _ u e he).1, fun hm u e he => h.cap hm u e (key _ _ u e he).1, ?_⟩
  intro u e he
  obtain ⟨h1, hlt⟩ := key _ _ u e he
  obtain ⟨e', g1, g2, g3⟩ := h.entry u e h1
  exact ⟨e', Option.bind_eq_some_iff.2 ⟨e', g1, if_neg (by omega)⟩, g2, g3⟩

theorem Le.setPromotion {eq more : Prop} {T T' : Table τ} (h : Le eq more T T') {p p' : BitVec 64} (hp : p.toNat ≤ p'.toNat)
    (hq : eq → p = p') (hm : ¬ more) :
    Le eq more (Table.step (.setPromotion p : Op τ S C) T).1 (Table.step (.setPromotion p' : Op τ S C) T').1 := by
  refine ⟨hp, h.removal, fun e => by rw [hq e]; rfl, ?_, fun hmo => absurd hmo hm, ?_⟩
  · intro u e he
    obtain ⟨e₀, h1, rfl⟩ := Option.map_eq_some_iff.1 he
    exact h.one u e₀ h1
  · intro u e he
    obtain ⟨e₀, h1, rfl⟩ := Option.map_eq_some_iff.1 he
    obtain ⟨e', g1, g2, g3⟩ := h.entry u e₀ h1
    refine ⟨_, Option.map_eq_some_iff.2 ⟨e', g1, rfl⟩, g2, fun e hc => ?_⟩
    simp only [decide_eq_true_eq] at hc ⊢
    rw [← hq e]
    exact hc.trans g2

theorem add_fields (t : τ) (X : Table τ) : (Table.step (.add t : Op τ S C) X).1.promo = X.promo ∧
    (Table.step (.add t : Op τ S C) X).1.removal = X.removal := by
  unfold Table.step
  simp only
  cases X.entry (TrackOps.uuid t) <;> exact ⟨rfl, rfl⟩

theorem add_back {t : τ} {X : Table τ} {u : Uuid} {e : Entry τ} (h : (Table.step (.add t : Op τ S C) X).1.entry u = some e) :
    X.entry u = some e ∨ (u = TrackOps.uuid t ∧ X.entry u = none ∧ e = ⟨t, 1, false⟩) := by
  unfold Table.step at h
  simp only at h
  cases hT : X.entry (TrackOps.uuid t) with
  | some e' => rw [hT] at h; exact Or.inl h
  | none =>
    rw [hT] at h
    simp only at h
    split at h
    · rename_i hu
      cases h
      exact Or.inr ⟨hu, by rw [hu, hT], rfl⟩
    · exact Or.inl h

theorem add_old (t : τ) {X : Table τ} {u : Uuid} {e : Entry τ} (h : X.entry u = some e) :
    (Table.step (.add t : Op τ S C) X).1.entry u = some e := by
  unfold Table.step
  simp only
  cases hT : X.entry (TrackOps.uuid t) with
  | some _ => exact h
  | none =>
    simp only
    split
    · rename_i hu; rw [hu, hT] at h; cases h
    · exact h

theorem add_new (t : τ) {X : Table τ} (h : X.entry (TrackOps.uuid t) = none) :
    (Table.step (.add t : Op τ S C) X).1.entry (TrackOps.uuid t) = some ⟨t, 1, false⟩ := by
  unfold Table.step
  simp only [h, if_true]

theorem Le.add {eq more : Prop} {T T' : Table τ} (h : Le eq more T T') (t : τ) :
    Le eq more (Table.step (.add t : Op τ S C) T).1 (Table.step (.add t : Op τ S C) T').1 := by
  obtain ⟨p1, r1⟩ := add_fields (S := S) (C := C) t T
  obtain ⟨p2, r2⟩ := add_fields (S := S) (C := C) t T'
  refine ⟨by rw [p1, p2]; exact h.promo, by rw [r1, r2]; exact h.removal, by rw [p1, p2]; exact h.same, ?_, ?_, ?_⟩
  · intro u e he
    rcases add_back he with he | ⟨-, -, rfl⟩
    · exact h.one u e he
    · exact le_rfl
  · intro hm u e he
    rw [p1]
    rcases add_back he with he | ⟨-, -, rfl⟩
    · exact h.cap hm u e he
    · exact Or.inr rfl
  · intro u e he
    rcases add_back he with he | ⟨rfl, -, rfl⟩
    · obtain ⟨e', g1, g2⟩ := h.entry u e he
      exact ⟨e', add_old t g1, g2⟩
    · cases hT' : T'.entry (TrackOps.uuid t) with
      | some e' => exact ⟨e', add_old t hT', h.one _ e' hT', fun _ hc => by cases hc⟩
      | none => exact ⟨_, add_new t hT', le_rfl, fun _ hc => hc⟩

theorem Le.same_step {eq more : Prop} {T T' : Table τ} (h : Le eq more T T') (op : Op τ S C) (hm : more → ¬ SetsPromotion op) :
    Le eq more (Table.step op T).1 (Table.step op T').1 := by
  cases op with
  | update a => exact h.update (fun _ h => h) (Or.inr fun _ h => h)
  | setRemoval r => exact h.setRemoval le_rfl
  | setPromotion p => exact h.setPromotion le_rfl (fun _ => rfl) fun hmo => hm hmo trivial
  | updateTrack u ts s c => exact h.modify u _ _
  | updateTrackFrom u t => exact h.modify u _ _
  | add t => exact h.add t

theorem Le.run_milder {ops ops' : List (Op τ S C)} (ho : List.Forall₂ Milder ops ops') {T T' : Table τ} (h : Le False False T T') :
    Le False False (T.run ops) (T'.run ops') := by
  induction ho generalizing T T' with
  | nil => exact h
  | cons h1 _ ih =>
    refine ih ?_
    cases h1 with
    | same => exact h.same_step _ fun hm => hm.elim
    | removal hr => exact h.setRemoval hr
    | promotion hp => exact h.setPromotion hp (fun e => e.elim) id

theorem Le.run_same {eq : Prop} (ops : List (Op τ S C)) {T T' : Table τ} (h : Le eq False T T') :
    Le eq False (T.run ops) (T'.run ops) := by
  induction ops generalizing T T' with
  | nil => exact h
  | cons op _ ih => exact ih (h.same_step op fun hm => hm.elim)

theorem Le.run_seen {eq : Prop} {ops ops' : List (Op τ S C)} (ho : List.Forall₂ MoreSeen ops ops')
    (hs : ∀ op ∈ ops, ¬ SetsPromotion op) {T T' : Table τ} (h : Le eq True T T') : Le eq True (T.run ops) (T'.run ops') := by
  induction ho generalizing T T' with
  | nil => exact h
  | cons h1 _ ih =>
    refine ih (fun op hop => hs op (List.mem_cons_of_mem _ hop)) ?_
    have h0 := hs _ List.mem_cons_self
    cases h1 with
    | same => exact h.same_step _ fun _ => h0
    | removal hr => exact h.setRemoval hr
    | update ha => exact h.update ha (Or.inl trivial)

theorem Le.new {eq more : Prop} {p p' r r' : ℕ} (hp : p ≤ p') (hr : r' ≤ r) (hq : eq → p = p') :
    Le eq more (new p r : Table τ) (new p' r') :=
  ⟨hp, hr, hq, fun _ _ h => (nomatch h), fun _ _ _ h => (nomatch h), fun _ _ h => (nomatch h)⟩

/-- one track under two promotion thresholds -/
structure Late (u : Uuid) (T T' : Table τ) : Prop where
  promo : T.promo ≤ T'.promo
  one : ∀ e, T.entry u = some e → 1 ≤ e.count
  entry : ∀ e e', T.entry u = some e → T'.entry u = some e' → e'.count + T.promo ≤ e.count + T'.promo ∧
    (e'.confirmed = true → e.confirmed = true)

theorem Late.modify {u : Uuid} {T T' : Table τ} (h : Late u T T') (v : Uuid) (f g : τ → τ × Outcome Unit) :
    Late u (T.modifyTrack v f).1 (T'.modifyTrack v g).1 := by
  obtain ⟨p1, -⟩ := modify_fields T v f
  obtain ⟨p2, -⟩ := modify_fields T' v g
  refine ⟨by rw [p1, p2]; exact h.promo, ?_, ?_⟩
  · intro e he
    obtain ⟨a, a1, a2, -⟩ := modify_back he
    rw [← a2]; exact h.one a a1
  · intro e e' he he'
    obtain ⟨a, a1, a2, a3⟩ := modify_back he
    obtain ⟨a', b1, b2, b3⟩ := modify_back he'
    rw [p1, p2, ← a2, ← b2, ← a3, ← b3]
    exact h.entry a a' a1 b1

theorem Late.step {u : Uuid} {T T' : Table τ} (h : Late u T T') {op : Op τ S C} (hp : ¬ SetsPromotion op)
    (ha : ¬ Adds u op ∨ (T.entry u = none ∧ T'.entry u = none)) : Late u (Table.step op T).1 (Table.step op T').1 := by
  cases op with
  | setPromotion p => exact absurd trivial hp
  | update a =>
    refine ⟨h.promo, ?_, ?_⟩
    · intro e he
      obtain ⟨e₀, -, h2⟩ := Option.bind_eq_some_iff.1 he
      have := (updateEntry_some h2).2.1
      omega
    · intro e e' he he'
      obtain ⟨e₀, h1, h2⟩ := Option.bind_eq_some_iff.1 he
      obtain ⟨e₀', h1', h2'⟩ := Option.bind_eq_some_iff.1 he'
      obtain ⟨k1, k2, k3⟩ := updateEntry_some h2
      obtain ⟨k1', k2', k3'⟩ := updateEntry_some h2'
      obtain ⟨g1, g2⟩ := h.entry _ _ h1 h1'
      have g0 := h.one _ h1
      have hpp := h.promo
      have hc : e'.count + T.promo ≤ e.count + T'.promo := by
        rw [k1, k1'] at *
        unfold newCount at *
        split <;> omega
      refine ⟨hc, fun hcf => ?_⟩
      rw [k3', Bool.or_eq_true, decide_eq_true_eq] at hcf
      rw [k3, Bool.or_eq_true, decide_eq_true_eq]
      refine hcf.imp g2 fun hle => ?_
      omega
  | setRemoval r =>
    refine ⟨h.promo, ?_, ?_⟩
    · intro e he
      obtain ⟨e₀, h1, h2⟩ := Option.bind_eq_some_iff.1 he
      split at h2
      · cases h2
      · cases h2; exact h.one _ h1
    · intro e e' he he'
      obtain ⟨e₀, h1, h2⟩ := Option.bind_eq_some_iff.1 he
      obtain ⟨e₀', h1', h2'⟩ := Option.bind_eq_some_iff.1 he'
      split at h2
      · cases h2
      · cases h2
        split at h2'
        · cases h2'
        · cases h2'; exact h.entry _ _ h1 h1'
  | updateTrack v ts s c => exact h.modify v _ _
  | updateTrackFrom v t => exact h.modify v _ _
  | add t =>
    have p1 := (add_fields (S := S) (C := C) t T).1
    have p2 := (add_fields (S := S) (C := C) t T').1
    refine ⟨by rw [p1, p2]; exact h.promo, ?_, ?_⟩
    · intro e he
      rcases add_back he with he | ⟨-, -, rfl⟩
      · exact h.one e he
      · exact le_rfl
    · intro e e' he he'
      rw [p1, p2]
      rcases add_back he with he | ⟨hu, -, rfl⟩ <;> rcases add_back he' with he' | ⟨hu', -, rfl⟩
      · exact h.entry e e' he he'
      · rcases ha with ha | ha
        · exact absurd hu'.symm ha
        · rw [ha.1] at he; cases he
      · rcases ha with ha | ha
        · exact absurd hu.symm ha
        · rw [ha.2] at he'; cases he'
      · exact ⟨Nat.add_le_add_left h.promo 1, id⟩

theorem step_none {u : Uuid} {op : Op τ S C} (ha : ¬ Adds u op) {X : Table τ} (h : X.entry u = none) :
    (Table.step op X).1.entry u = none := by
  cases hn : (Table.step op X).1.entry u with
  | none => rfl
  | some e =>
    exfalso
    cases op with
    | add t =>
      rcases add_back hn with hx | ⟨hu, -⟩
      · rw [h] at hx; cases hx
      · exact ha hu.symm
    | update a => obtain ⟨e₀, h1, -⟩ := Option.bind_eq_some_iff.1 hn; rw [h] at h1; cases h1
    | setRemoval r => obtain ⟨e₀, h1, -⟩ := Option.bind_eq_some_iff.1 hn; rw [h] at h1; cases h1
    | setPromotion p => obtain ⟨e₀, h1, -⟩ := Option.map_eq_some_iff.1 hn; rw [h] at h1; cases h1
    | updateTrack v ts s c => obtain ⟨a, h1, -⟩ := modify_back hn; rw [h] at h1; cases h1
    | updateTrackFrom v t => obtain ⟨a, h1, -⟩ := modify_back hn; rw [h] at h1; cases h1

theorem Late.run_after {u : Uuid} {ops : List (Op τ S C)} (hp : ∀ op ∈ ops, ¬ SetsPromotion op) (ha : ∀ op ∈ ops, ¬ Adds u op)
    {T T' : Table τ} (h : Late u T T') : Late u (T.run ops) (T'.run ops) := by
  induction ops generalizing T T' with
  | nil => exact h
  | cons op ops ih =>
    exact ih (fun o ho => hp o (List.mem_cons_of_mem _ ho)) (fun o ho => ha o (List.mem_cons_of_mem _ ho))
      (h.step (hp op List.mem_cons_self) (Or.inl (ha op List.mem_cons_self)))

theorem Late.run {u : Uuid} {ops : List (Op τ S C)} (hp : ∀ op ∈ ops, ¬ SetsPromotion op)
    (ha : ops.Pairwise fun a b => ¬ (Adds u a ∧ Adds u b)) {T T' : Table τ} (h : Late u T T') (hn : T.entry u = none)
    (hn' : T'.entry u = none) : Late u (T.run ops) (T'.run ops) := by
  induction ops generalizing T T' with
  | nil => exact h
  | cons op ops ih =>
    obtain ⟨h1, h2⟩ := List.pairwise_cons.1 ha
    have hs := h.step (hp op List.mem_cons_self) (Or.inr ⟨hn, hn'⟩)
    have hp' : ∀ o ∈ ops, ¬ SetsPromotion o := fun o ho => hp o (List.mem_cons_of_mem _ ho)
    by_cases hu : Adds u op
    · exact hs.run_after hp' fun o ho hx => h1 o ho ⟨hu, hx⟩
    · exact ih hp' h2 hs (step_none hu hn) (step_none hu hn')

theorem Late.new {u : Uuid} {p p' r r' : ℕ} (hp : p ≤ p') : Late u (new p r : Table τ) (new p' r') :=
  ⟨hp, fun _ h => (nomatch h), fun _ _ h _ => (nomatch h)⟩

end Spec.Table

end Mot
