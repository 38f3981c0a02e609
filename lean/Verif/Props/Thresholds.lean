import Verif.Proofs.Thresholds
import Verif.Props.TrackManagement
/-!
# Properties of thresholds and evidence, by comparing two managers (C124)
-/

namespace Mot.Props

open Mot Spec Manager

section
variable {τ S C : Type} [TrackOps τ S C] [LawfulTrackOps τ]

/-! ## C124 -/

omit [LawfulTrackOps τ] in
private theorem transfer {eq more : Prop} {n n' : ℕ} {m m' : Manager τ} {T T' : Table τ} (h : Rel n m T) (h' : Rel n' m' T')
    (hn : n + 2 < 2 ^ 64) (hn' : n' + 2 < 2 ^ 64) (hle : Table.Le eq more T T') (u : Uuid) :
    (m.Managed u → m'.Managed u) ∧ m.counter u ≤ m'.counter u ∧ (eq → m.Confirmed u → m'.Confirmed u) := by
  refine ⟨?_, ?_, ?_⟩
  · rw [h.managed, h'.managed]
    rintro ⟨e, he⟩
    obtain ⟨e', he', -⟩ := hle.entry u e he
    exact ⟨e', he'⟩
  · cases he : T.entry u with
    | none => rw [counter, h.occ, he]; exact Nat.zero_le _
    | some e =>
      obtain ⟨e', he', hc, -⟩ := hle.entry u e he
      rw [h.counter_some (by omega) he, h'.counter_some (by omega) he']
      exact hc
  · intro hq
    rw [h.confirmed, h'.confirmed]
    rintro ⟨e, he, hc⟩
    obtain ⟨e', he', -, hf⟩ := hle.entry u e he
    exact ⟨e', he', hf hq hc⟩

/-- C124: of two managers that get the same calls, the one whose promotion threshold is never lower and whose removal threshold
is never higher (from the constructor on, and whenever they are set) manages every track the other manages, with at least its
count. -/
theorem C124_thresholds {p p' r r' : BitVec 64} (hp : p.toNat ≤ p'.toNat) (hr : r'.toNat ≤ r.toNat) {ops ops' : List (Op τ S C)}
    (ho : List.Forall₂ Milder ops ops') {os os' : List (Outcome Unit)} {m m' : Manager τ}
    (h : Runs (Manager.new p r) ops os m) (h' : Runs (Manager.new p' r') ops' os' m') (hn : numUpdates ops + 2 < 2 ^ 64)
    (hn' : numUpdates ops' + 2 < 2 ^ 64) (u : Uuid) :
    (m.Managed u → m'.Managed u) ∧ m.counter u ≤ m'.counter u := by
  obtain ⟨g, -⟩ := rel_runs (rel_new p r) h (by omega)
  obtain ⟨g', -⟩ := rel_runs (rel_new p' r') h' (by omega)
  have := transfer g g' (by omega) (by omega) ((Table.Le.new hp hr (fun e => e.elim)).run_milder ho) u
  exact ⟨this.1, this.2.1⟩

/-- C124: if only the removal threshold given to the constructor is lower, the tracks confirmed before are confirmed still. -/
theorem C124_removal {p r r' : BitVec 64} (hr : r'.toNat ≤ r.toNat) {ops : List (Op τ S C)} {os os' : List (Outcome Unit)}
    {m m' : Manager τ} (h : Runs (Manager.new p r) ops os m) (h' : Runs (Manager.new p r') ops os' m')
    (hn : numUpdates ops + 2 < 2 ^ 64) (u : Uuid) : m.Confirmed u → m'.Confirmed u := by
  obtain ⟨g, -⟩ := rel_runs (rel_new p r) h (by omega)
  obtain ⟨g', -⟩ := rel_runs (rel_new p r') h' (by omega)
  exact (transfer (eq := True) g g' (by omega) (by omega) ((Table.Le.new le_rfl hr (fun _ => rfl)).run_same ops) u).2.2 trivial

/-- C124: as long as the promotion threshold is not set, more associations never harm a track: a manager with at least the
promotion threshold and at most the removal threshold, told of at least the associations, manages every track the other
manages, with at least its count; with the same promotion threshold it also confirms every track the other confirms. -/
theorem C124_evidence {p p' r r' : BitVec 64} (hp : p.toNat ≤ p'.toNat) (hr : r'.toNat ≤ r.toNat) {ops ops' : List (Op τ S C)}
    (ho : List.Forall₂ MoreSeen ops ops') (hs : ∀ op ∈ ops, ¬ SetsPromotion op) {os os' : List (Outcome Unit)} {m m' : Manager τ}
    (h : Runs (Manager.new p r) ops os m) (h' : Runs (Manager.new p' r') ops' os' m') (hn : numUpdates ops + 2 < 2 ^ 64)
    (hn' : numUpdates ops' + 2 < 2 ^ 64) (u : Uuid) :
    (m.Managed u → m'.Managed u) ∧ m.counter u ≤ m'.counter u ∧ (p = p' → m.Confirmed u → m'.Confirmed u) := by
  obtain ⟨g, -⟩ := rel_runs (rel_new p r) h (by omega)
  obtain ⟨g', -⟩ := rel_runs (rel_new p' r') h' (by omega)
  exact transfer g g' (by omega) (by omega)
    ((Table.Le.new (eq := p = p') hp hr (fun e => by rw [e])).run_seen ho hs) u

/-- C124: a higher promotion threshold never confirms a track sooner: a track added once, confirmed under the higher threshold
and managed under the lower one too, is confirmed under the lower one — whatever the removal thresholds. -/
theorem C124_promotion {p p' r r' : BitVec 64} (hp : p.toNat ≤ p'.toNat) {u : Uuid} {ops : List (Op τ S C)}
    (hs : ∀ op ∈ ops, ¬ SetsPromotion op) (ha : ops.Pairwise fun a b => ¬ (Adds u a ∧ Adds u b))
    {os os' : List (Outcome Unit)} {m m' : Manager τ} (h : Runs (Manager.new p r) ops os m)
    (h' : Runs (Manager.new p' r') ops os' m') (hn : numUpdates ops + 2 < 2 ^ 64) (hc : m'.Confirmed u) (hm : m.Managed u) :
    m.Confirmed u := by
  obtain ⟨g, -⟩ := rel_runs (rel_new p r) h (by omega)
  obtain ⟨g', -⟩ := rel_runs (rel_new p' r') h' (by omega)
  obtain ⟨e, he⟩ := g.managed.1 hm
  obtain ⟨e', he', hc'⟩ := g'.confirmed.1 hc
  have hl := (Table.Late.new (u := u) (r := r.toNat) (r' := r'.toNat) hp).run hs ha rfl rfl
  exact g.confirmed.2 ⟨e, he, (hl.entry e e' he he').2 hc'⟩

end

/-- no associations -/
def assocNone : AssociationMap := SMap.empty

/-- a track is added, seen twice, missed twice and added again -/
def readdOps : List (Op (DynObj ℕ ℕ) ℕ ℕ) :=
  [.add (trk 1), .update (assocOf 1), .update (assocOf 1), .update assocNone, .update assocNone, .add (trk 1)]

/-- C124: that the track is added once is needed: a track added again after its removal under the lower threshold is new
there, while under the higher threshold it was never removed and stays confirmed. -/
theorem C124_readd_needed {os os' : List (Outcome Unit)} {m m' : Manager (DynObj ℕ ℕ)}
    (h : Runs (Manager.new 2 0) readdOps os m) (h' : Runs (Manager.new 3 0) readdOps os' m') :
    m'.Confirmed (uid 1) ∧ m.Managed (uid 1) ∧ ¬ m.Confirmed (uid 1) := by
  have hn : numUpdates readdOps = 4 := rfl
  obtain ⟨g, -⟩ := rel_runs (rel_new 2 0) h (by rw [hn]; omega)
  obtain ⟨g', -⟩ := rel_runs (rel_new 3 0) h' (by rw [hn]; omega)
  have e : (Table.run readdOps (Table.new (2 : BitVec 64).toNat (0 : BitVec 64).toNat)).entry (uid 1) = some ⟨trk 1, 1, false⟩ := rfl
  have e' : (Table.run readdOps (Table.new (3 : BitVec 64).toNat (0 : BitVec 64).toNat)).entry (uid 1) = some ⟨trk 1, 1, true⟩ := rfl
  refine ⟨g'.confirmed.2 ⟨_, e', rfl⟩, g.managed.2 ⟨_, e⟩, fun hc => ?_⟩
  obtain ⟨x, hx, hf⟩ := g.confirmed.1 hc
  rw [e] at hx
  cases hx
  cases hf

/-- a track is added and seen twice, the promotion threshold is lowered to one, there is a last update with these associations
and one without any -/
def lowerOps (a : AssociationMap) : List (Op (DynObj ℕ ℕ) ℕ ℕ) :=
  [.add (trk 1), .update (assocOf 1), .update (assocOf 1), .setPromotion 1, .update a, .update assocNone]

/-- C124: that the promotion threshold stays is needed: after it was lowered, an association costs the track all of its count
above the new threshold and a miss only one, so the track that is seen once more is removed and the other is not. -/
theorem C124_hit_can_cost {os os' : List (Outcome Unit)} {m m' : Manager (DynObj ℕ ℕ)}
    (h : Runs (Manager.new 3 0) (lowerOps assocNone) os m) (h' : Runs (Manager.new 3 0) (lowerOps (assocOf 1)) os' m') :
    List.Forall₂ MoreSeen (lowerOps assocNone) (lowerOps (assocOf 1)) ∧ m.Confirmed (uid 1) ∧ ¬ m'.Managed (uid 1) := by
  have hn : ∀ a, numUpdates (lowerOps a) = 4 := fun _ => rfl
  obtain ⟨g, -⟩ := rel_runs (rel_new 3 0) h (by rw [hn]; omega)
  obtain ⟨g', -⟩ := rel_runs (rel_new 3 0) h' (by rw [hn]; omega)
  have e : (Table.run (lowerOps assocNone) (Table.new (3 : BitVec 64).toNat (0 : BitVec 64).toNat)).entry (uid 1) =
    some ⟨trk 1, 1, true⟩ := rfl
  have e' : (Table.run (lowerOps (assocOf 1)) (Table.new (3 : BitVec 64).toNat (0 : BitVec 64).toNat)).entry (uid 1) = none := rfl
  refine ⟨?_, g.confirmed.2 ⟨_, e, rfl⟩, fun hc => ?_⟩
  · exact .cons (.same _) (.cons (.same _) (.cons (.same _) (.cons (.same _)
      (.cons (.update fun u hu => absurd hu (by simp [assocNone, SMap.keys, SMap.empty])) (.cons (.same _) .nil)))))
  · obtain ⟨x, hx⟩ := g'.managed.1 hc
    rw [e'] at hx
    cases hx

/-- a track is added, seen and missed -/
private def seenOnce (a b : AssociationMap) (r : BitVec 64) : List (Op (DynObj ℕ ℕ) ℕ ℕ) :=
  [.add (trk 1), .setRemoval r, .update a, .update b]

private theorem seen_more : List.Forall₂ MoreSeen (seenOnce (assocOf 1) assocNone 0) (seenOnce (assocOf 1) (assocOf 1) 0) :=
  .cons (.same _) (.cons (.same _) (.cons (.same _)
    (.cons (.update fun u hu => absurd hu (by simp [assocNone, SMap.keys, SMap.empty])) .nil)))

private theorem seen_count (b : AssociationMap) (r : BitVec 64) : numUpdates (seenOnce (assocOf 1) b r) = 2 := rfl

/-- a track is added, the promotion threshold is set, the track is seen and missed -/
private def seenUnder (p : BitVec 64) : List (Op (DynObj ℕ ℕ) ℕ ℕ) :=
  [.add (trk 1), .setPromotion p, .update (assocOf 1), .update (assocOf 1), .update assocNone]

example : (run (seenUnder 3) (Manager.new 2 0)).Managed (uid 1) ∧ 1 ≤ (run (seenUnder 3) (Manager.new 2 0)).counter (uid 1) := by
  have hn : ∀ p, numUpdates (seenUnder p) = 3 := fun _ => rfl
  obtain ⟨g, -⟩ := rel_runs (rel_new 2 0) (runs_run (seenUnder 2) _) (by rw [hn]; omega)
  have e : (Table.run (seenUnder 2) (Table.new (2 : BitVec 64).toNat (0 : BitVec 64).toNat)).entry (uid 1) =
    some ⟨trk 1, 1, true⟩ := rfl
  have h := C124_thresholds (ops := seenUnder 2) (ops' := seenUnder 3) (p := 2) (p' := 2) (r := 0) (r' := 0) le_rfl le_rfl
    (.cons (.same _) (.cons (.promotion (by decide)) (.cons (.same _) (.cons (.same _) (.cons (.same _) .nil)))))
    (runs_run (seenUnder 2) _) (runs_run (seenUnder 3) _) (by rw [hn]; omega) (by rw [hn]; omega) (uid 1)
  rw [g.counter_some (by rw [hn]; omega) e] at h
  exact ⟨h.1 (g.managed.2 ⟨_, e⟩), h.2⟩

example : (run (seenOnce (assocOf 1) (assocOf 1) 0) (Manager.new 3 0)).Confirmed (uid 1) := by
  have hn := fun b => seen_count b 0
  obtain ⟨g, -⟩ := rel_runs (rel_new 3 1) (runs_run (seenOnce (assocOf 1) (assocOf 1) 0) _) (by rw [hn]; omega)
  exact C124_removal (p := 3) (r := 1) (r' := 0) (by decide) (runs_run _ _) (runs_run _ _) (by rw [hn]; omega) (uid 1)
    (g.confirmed.2 ⟨⟨trk 1, 3, true⟩, rfl, rfl⟩)

example : (run (seenOnce (assocOf 1) assocNone 0) (Manager.new 2 0)).Managed (uid 1) ∧
    (run (seenOnce (assocOf 1) (assocOf 1) 0) (Manager.new 2 0)).Confirmed (uid 1) := by
  have hn := fun b => seen_count b 0
  obtain ⟨g, -⟩ := rel_runs (rel_new 2 0) (runs_run (seenOnce (assocOf 1) assocNone 0) _) (by rw [hn]; omega)
  have e : (Table.run (seenOnce (assocOf 1) assocNone 0) (Table.new (2 : BitVec 64).toNat (0 : BitVec 64).toNat)).entry (uid 1) =
    some ⟨trk 1, 1, true⟩ := rfl
  refine ⟨g.managed.2 ⟨_, e⟩, ?_⟩
  refine (C124_evidence (p := 2) (p' := 2) (r := 0) (r' := 0) le_rfl le_rfl seen_more ?_ (runs_run _ _) (runs_run _ _)
    (by rw [hn]; omega) (by rw [hn]; omega) (uid 1)).2.2 rfl (g.confirmed.2 ⟨_, e, rfl⟩)
  intro op hop
  simp only [seenOnce, List.mem_cons, List.not_mem_nil, or_false] at hop
  rcases hop with rfl | rfl | rfl | rfl <;> exact id

example : (run [.add (trk 1), .update (assocOf 1), .update (assocOf 1)] (Manager.new 2 0 : Manager (DynObj ℕ ℕ))).Confirmed (uid 1) := by
  have hn : numUpdates [.add (trk 1), .update (assocOf 1), (.update (assocOf 1) : Op (DynObj ℕ ℕ) ℕ ℕ)] = 2 := rfl
  have h := runs_run [.add (trk 1), .update (assocOf 1), (.update (assocOf 1) : Op (DynObj ℕ ℕ) ℕ ℕ)]
  obtain ⟨g, -⟩ := rel_runs (rel_new 2 0) (h _) (by rw [hn]; omega)
  obtain ⟨g', -⟩ := rel_runs (rel_new 3 0) (h _) (by rw [hn]; omega)
  refine C124_promotion (p := 2) (p' := 3) (r := 0) (r' := 0) (by decide) ?_ ?_ (h _) (h _) (by rw [hn]; omega)
    (g'.confirmed.2 ⟨⟨trk 1, 3, true⟩, rfl, rfl⟩) (g.managed.2 ⟨⟨trk 1, 2, true⟩, rfl⟩)
  · intro op hop
    simp only [List.mem_cons, List.not_mem_nil, or_false] at hop
    rcases hop with rfl | rfl | rfl <;> exact id
  · simp [Adds]

end Mot.Props
