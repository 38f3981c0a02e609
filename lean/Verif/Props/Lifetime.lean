import Verif.Proofs.Lifetime
import Verif.Props.Pipeline
/-!
# Properties of the life of one track (C80, C81)
-/

namespace Mot.Props

open Mot Spec Manager

section
variable {τ S C : Type} [TrackOps τ S C] [LawfulTrackOps τ]

/-! ## C80 -/

/-- C80: two histories that mean the same for the track with UUID `u`, from managers that
show the same about it, give the same outcomes of the calls that concern it and show the same
about it at the end — whatever else they do to other tracks, in whatever order. -/
theorem C80_noninterference {n n' : ℕ} {m m' m₁ m₁' : Manager τ} (hr : ReachableIn S C n m)
    (hr' : ReachableIn S C n' m') {u : Uuid} (ha : AgreeOn u m m') {ops ops' : List (Op τ S C)}
    {os os' : List (Outcome Unit)} (h : Runs m ops os m₁) (h' : Runs m' ops' os' m₁')
    (hn : n + numUpdates ops + 2 < 2 ^ 64) (hn' : n' + numUpdates ops' + 2 < 2 ^ 64)
    (hl : ops.filterMap (localView u) = ops'.filterMap (localView u)) :
    AgreeOn u m₁ m₁' ∧ localHistory u ops os = localHistory u ops' os' := by
  obtain ⟨T, h0⟩ := reachable_rel hr (by omega)
  obtain ⟨T', h0'⟩ := reachable_rel hr' (by omega)
  obtain ⟨h1, o1⟩ := rel_runs h0 h (by omega)
  obtain ⟨h2, o2⟩ := rel_runs h0' h' (by omega)
  have ht := table_of_agreeOn h0 h0' (by omega) (by omega) ha
  have e1 := run_local u ops T
  have e2 := run_local u ops' T'
  rw [hl, ht, ← e2] at e1
  simp only [Prod.mk.injEq] at e1
  exact ⟨agreeOn_of_table h1 h2 (by omega) (by omega) e1.1, by rw [o1, o2]; exact e1.2⟩

/-! ## C81 -/

/-- C81: the life of a managed track through any history that changes no threshold and does not
add its UUID again, whatever else happens.  It is removed exactly if in some window of
updates the misses outnumber the hits too much: by its count less the removal threshold for
windows from the start, by the promotion less the removal threshold for others.  It is
confirmed exactly if it survives and, counted from the start, hits minus misses at some time
reached the promotion threshold less its count.  Its count is the least such sum over all windows
that end now. -/
theorem C81_windows {n : ℕ} {m m' : Manager τ} (hr : ReachableIn S C n m) {u : Uuid}
    (hm : m.Managed u) (hc : m.counter u ≤ m.promo.toNat) {ops : List (Op τ S C)}
    {os : List (Outcome Unit)} (hrun : Runs m ops os m') (hk : ∀ op ∈ ops, Op.Keeps u op)
    (hn : n + numUpdates ops + 2 < 2 ^ 64) :
    (m'.Managed u ↔ ∀ p w, p ++ w <+: seenFlags u ops → p ++ w ≠ [] →
      (m.removal.toNat : ℤ) < (if p = [] then m.counter u else m.promo.toNat) + net w) ∧
    (m'.Confirmed u ↔ m'.Managed u ∧ (m.Confirmed u ∨
      ∃ w, w ≠ [] ∧ w <+: seenFlags u ops ∧ (m.promo.toNat : ℤ) ≤ m.counter u + net w)) ∧
    (m'.Managed u →
      (∀ p w, seenFlags u ops = p ++ w →
        (m'.counter u : ℤ) ≤ (if p = [] then m.counter u else m.promo.toNat) + net w) ∧
      ∃ p w, seenFlags u ops = p ++ w ∧
        (m'.counter u : ℤ) = (if p = [] then m.counter u else m.promo.toNat) + net w) := by
  obtain ⟨T, h⟩ := reachable_rel hr (by omega)
  obtain ⟨h', -⟩ := rel_runs h hrun (by omega)
  obtain ⟨e, he⟩ := h.managed.1 hm
  have hcnt := h.counter_some (by omega) he
  have hc1 := ((C03_counter_range hr (by omega) u).1 hm).1
  obtain ⟨hl, -, -⟩ := run_life u ops hk T
  rw [he] at hl
  rw [hcnt, h.promo] at hc
  rw [hcnt] at hc1
  have hcf : m.Confirmed u ↔ e.confirmed = true := by
    rw [h.confirmed, he]
    simp only [Option.some.injEq, exists_eq_left']
  obtain ⟨g1, g2⟩ := life_spec (removal := T.removal) (f := e.confirmed) hc hc1 (seenFlags u ops)
  change entryLife _ = life T.promo T.removal (some (e.count, e.confirmed)) _ at hl
  simp only [windowBase] at g1 g2
  push_cast
  rw [hcf, hcnt, h.promo, h.removal]
  rcases hx : (Table.run ops T).entry u with _ | e'
  · rw [hx] at hl
    rw [← hl] at g1
    have hno : ¬ m'.Managed u := by rw [h'.managed, hx]; simp
    refine ⟨?_, ?_, fun h => absurd h hno⟩
    · rw [← g1]
      simp only [hno, entryLife, Option.map_none, Option.isSome_none, Bool.false_eq_true]
    · simp only [hno, false_and, iff_false]
      rw [h'.confirmed, hx]; simp
  · rw [hx] at hl
    rw [← hl] at g1 g2
    have hyes : m'.Managed u := by rw [h'.managed, hx]; simp
    obtain ⟨-, -, g3, g4, g5⟩ := g2 e'.count e'.confirmed rfl
    rw [h'.counter_some (by omega) hx]
    refine ⟨?_, ?_, fun _ => ⟨g3, g4⟩⟩
    · rw [← g1]
      simp only [hyes, entryLife, Option.map_some, Option.isSome_some]
    · rw [h'.confirmed, hx, ← g5]
      simp only [hyes, true_and, Option.some.injEq, exists_eq_left']

omit [LawfulTrackOps τ] in
/-- C81: completed tracking cycles, each followed by starting new tracks, are such histories: one
update per cycle, in which the track is seen iff it is a key of that cycle's association map. -/
theorem C81_cycles {visitor : τ → τ → Outcome τ} {make : τ → τ} {m m' : Manager τ}
    {l : List (List τ × AssociationMap)} (h : Frames visitor make m l m') :
    ∃ (ops : List (Op τ S C)) (os : List (Outcome Unit)), Runs m ops os m' ∧
      numUpdates ops = l.length ∧
      (∀ u, seenFlags u ops = l.map fun x => decide (u ∈ x.2.keys)) ∧
      ∀ u, (∀ x ∈ l, ∀ d ∈ x.1, TrackOps.uuid (make d) ≠ u) → ∀ op ∈ ops, Op.Keeps u op := by
  obtain ⟨ops, os, h1, h2, h3⟩ := frames_runs (S := S) (C := C) h
  exact ⟨ops, os, h1, by rw [numUpdates_eq ⟨[]⟩ ops, h2, List.length_map], h2, h3⟩

/-- hits and misses in turn, starting with a hit -/
def alternating : ℕ → List Bool
  | 0 => []
  | k + 1 => true :: false :: alternating k

theorem net_alternating (k : ℕ) : net (alternating k) = 0 ∧
    ∀ w, w <+: alternating k → 0 ≤ net w ∧ net w ≤ 1 := by
  induction k with
  | zero =>
    refine ⟨rfl, fun w hw => ?_⟩
    rw [List.prefix_nil.1 hw, net_nil]; omega
  | succ k ih =>
    have e : ∀ l, net (true :: false :: l) = net l := fun l => by
      rw [show true :: false :: l = [true, false] ++ l from rfl, net_append]
      simp only [show net [true, false] = 0 from rfl, zero_add]
    refine ⟨(e _).trans ih.1, fun w hw => ?_⟩
    rcases List.prefix_cons_iff.1 hw with rfl | ⟨v, rfl, hv⟩
    · rw [net_nil]; omega
    · rcases List.prefix_cons_iff.1 hv with rfl | ⟨v, rfl, hv'⟩
      · rw [show net [true] = 1 from rfl]; omega
      · rw [e]; exact ih.2 v hv'

/-- C81, consequence: a new track seen in every other update (first a hit, then a miss, …) is
never confirmed and never removed, however long this goes on, if the promotion threshold is at
least 3 and the removal threshold is 0; its count is 1 again. -/
theorem C81_every_other_update {n : ℕ} {m m' : Manager τ} (hr : ReachableIn S C n m) {u : Uuid}
    (hm : m.Managed u) (ht : ¬ m.Confirmed u) (hc : m.counter u = 1) (hp : 3 ≤ m.promo.toNat)
    (hr0 : m.removal.toNat = 0) {ops : List (Op τ S C)} {os : List (Outcome Unit)}
    (hrun : Runs m ops os m') (hk : ∀ op ∈ ops, Op.Keeps u op) {k : ℕ}
    (hf : seenFlags u ops = alternating k) (hn : n + numUpdates ops + 2 < 2 ^ 64) :
    m'.Managed u ∧ ¬ m'.Confirmed u ∧ m'.counter u = 1 := by
  obtain ⟨g1, g2, g3⟩ := C81_windows hr hm (by omega) hrun hk hn
  obtain ⟨a1, a2⟩ := net_alternating k
  rw [hf] at g1 g2 g3
  rw [hc] at g1 g2 g3
  have hman : m'.Managed u := by
    refine g1.2 fun p w hp hne => ?_
    by_cases h0 : p = []
    · subst h0
      have := a2 w hp
      rw [if_pos rfl, hr0]
      push_cast; omega
    · have h1 := a2 p ((List.prefix_append p w).trans hp)
      have h2 := a2 _ hp
      rw [net_append] at h2
      rw [if_neg h0, hr0]
      push_cast; omega
  refine ⟨hman, ?_, ?_⟩
  · rw [g2]
    rintro ⟨-, h | ⟨w, -, hw, hge⟩⟩
    · exact ht h
    · have := a2 w hw
      push_cast at hge; omega
  · obtain ⟨g4, -⟩ := g3 hman
    have h1 := g4 [] _ rfl
    rw [if_pos rfl, a1] at h1
    obtain ⟨p, rr, ops₀, os₀, h2, h3⟩ := hr
    obtain ⟨os', h4⟩ := runs_append h2 hrun
    have h5 := ((C03_counter_range (S := S) (C := C) (n := n + numUpdates ops)
      ⟨p, rr, _, _, h4, by rw [numUpdates_append, h3]⟩ (by omega) u).1 hman).1
    push_cast at h1; omega

end

/-- the second history adds and updates other tracks, and sees other tracks, in between -/
def otherOps : List (Op (DynObj ℕ ℕ) ℕ ℕ) :=
  [.add (trk 4), .add (trk 1), .updateTrackFrom (uid 4) (trk 5), .add (trk 6),
    .update ((assocOf 1).set (uid 6) [uid 8]), .add (trk 7)]

/-- hypotheses of `C80_noninterference` -/
example : sampleOps.filterMap (localView (uid 1)) = otherOps.filterMap (localView (uid 1)) ∧
    (∃ os m, Runs (Manager.new 2 0) sampleOps os m) ∧ (∃ os m, Runs (Manager.new 2 0) otherOps os m) ∧
    ReachableIn ℕ ℕ 0 (Manager.new 2 0 : Manager (DynObj ℕ ℕ)) ∧
    AgreeOn (uid 1) (Manager.new 2 0 : Manager (DynObj ℕ ℕ)) (Manager.new 2 0) := by
  have h1 : uid 1 ∈ (assocOf 1).keys := by decide +kernel
  have h2 : uid 1 ∈ ((assocOf 1).set (uid 6) [uid 8]).keys := by decide +kernel
  refine ⟨?_, ⟨_, _, runs_run _ _⟩, ⟨_, _, runs_run _ _⟩, ⟨2, 0, [], [], .nil (Reordered.refl _), rfl⟩,
    ⟨fun _ => Iff.rfl, rfl, Iff.rfl, Iff.rfl, rfl, rfl⟩⟩
  have e1 : TrackOps.uuid (trk 1) = uid 1 := rfl
  have e2 : TrackOps.uuid (trk 2) ≠ uid 1 := by decide +kernel
  have e4 : TrackOps.uuid (trk 4) ≠ uid 1 := by decide +kernel
  have e4' : uid 4 ≠ uid 1 := by decide +kernel
  have e6 : TrackOps.uuid (trk 6) ≠ uid 1 := by decide +kernel
  have e7 : TrackOps.uuid (trk 7) ≠ uid 1 := by decide +kernel
  simp only [sampleOps, otherOps, List.filterMap_cons, List.filterMap_nil, localView, if_pos e1,
    if_neg e2, if_neg e4, if_neg e4', if_neg e6, if_neg e7, h1, h2]

/-- hypotheses of `C81_windows` and `C81_every_other_update` -/
example : let m := (step (.add (trk 5)) (Manager.new 3 0 : Manager (DynObj ℕ ℕ))).1
    let ops : List (Op (DynObj ℕ ℕ) ℕ ℕ) :=
      [.add (trk 6), .update (assocOf 5), .update (assocOf 6), .update (assocOf 5), .update (assocOf 6)]
    ReachableIn ℕ ℕ 0 m ∧ m.Managed (uid 5) ∧ ¬ m.Confirmed (uid 5) ∧ m.counter (uid 5) = 1 ∧
      3 ≤ m.promo.toNat ∧ m.removal.toNat = 0 ∧ (∃ os m', Runs m ops os m') ∧
      (∀ op ∈ ops, Op.Keeps (uid 5) op) ∧ seenFlags (uid 5) ops = alternating 2 := by
  intro m ops
  have hr : ReachableIn ℕ ℕ 0 m :=
    reachable_step ⟨3, 0, [], [], .nil (Reordered.refl _), rfl⟩ (.add (trk 5))
  refine ⟨hr, ?_, ?_, by decide +kernel, by decide +kernel, by decide +kernel,
    ⟨_, _, runs_run _ _⟩, ?_, by decide +kernel⟩
  · exact ⟨trk 5, by show trk 5 ∈ [trk 5]; simp, rfl⟩
  · rintro ⟨l, hl, t, ht, -⟩
    have : m.getConfirmedTracks = .ok [] := rfl
    rw [this] at hl
    cases hl
    cases ht
  · intro op hop
    simp only [ops, List.mem_cons, List.not_mem_nil, or_false] at hop
    rcases hop with rfl | rfl | rfl | rfl | rfl
    · show TrackOps.uuid (trk 6) ≠ uid 5
      decide +kernel
    all_goals trivial

/-- a completed cycle with a new track afterwards -/
example {solve : Solver} (hs : IsOptimalSolver solve) :
    let m := (addTentativeTrack (motCtrv 1) (Manager.new 3 0)).1
    ∃ a m', Frames ciVisitor makeTrack2 m [([motCtrv 7, motCtra 8], a)] m' ∧ a.keys ≠ [] := by
  intro m
  obtain ⟨a, hr, ha, hf, hne, hnew⟩ := sample_scene hs
  have hD : ([motCtrv 7, motCtra 8].map TrackOps.uuid).Nodup := by
    show [(⟨[7]⟩ : Uuid), ⟨[8]⟩].Nodup
    decide +kernel
  have hbig : m.getAllTracks.length * [motCtrv 7, motCtra 8].length < 2 ^ 64 := by
    rw [show m.getAllTracks = [motCtrv 1] from rfl]; simp
  have h1 := (C69_cycle hr (by norm_num) hs.perm hD hbig ha hf).1
  have h2 := (C73_every_detection_once hr (by norm_num) hs.perm hD hbig ha hf hnew).1
  exact ⟨a, _, .cons (Prod.ext rfl h1) (Prod.ext rfl h2) .nil, hne⟩

end Mot.Props
