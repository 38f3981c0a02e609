import Verif.Proofs.Crowd
import Verif.Props.Period
/-!
# The number of tracks stays bounded (C119)
-/

namespace Mot.Props

open Mot Spec Manager

section
variable {τ S C : Type} [TrackOps τ S C] [LawfulTrackOps τ]

/-- C119: start with a new manager with the thresholds `P` and `R`.  Every round updates the track lists
once, and associates or adds at most `D` tracks in total.  Then after any number of rounds, the tracks with
counts above `R` are fewer than `D · (⌈log₂ (max P 1 - R)⌉ + 2)`, and all tracks are at most `D` more, or,
if `R = 0`, no more. -/
theorem C119_rounds {D : ℕ} (hD : 0 < D) (P R : BitVec 64) {rs : List (Round τ S C)}
    (hr : ∀ r ∈ rs, r.AtMost D) (hn : rs.length + 2 < 2 ^ 64) {os : List (Outcome Unit)} {m : Manager τ}
    (h : Runs (Manager.new P R) (rs.flatMap Round.ops) os m) :
    numAbove m < D * (Nat.clog 2 (max P.toNat 1 - R.toNat) + 2) ∧ numTracks m ≤ numAbove m + D ∧
      (R = 0 → numTracks m = numAbove m) := by
  have hu := Crowd.round_updates hr
  have hT := (rel_runs (rel_new P R) h (by rw [hu]; omega)).1
  rw [hu, Nat.zero_add] at hT
  have hc := Crowd.rounds_crowded hD (Crowd.crowded_new (τ := τ) D P.toNat R.toNat) hr
  have hp : m.promo.toNat = P.toNat ∧ m.removal.toNat = R.toNat := by
    rw [hT.promo, hT.removal]
    exact Crowd.rounds_thresholds _ hr
  refine ⟨?_, (hc.all (by omega) hT).1, fun h0 => (hc.all (by omega) hT).2 (by rw [hp.2, h0]; rfl)⟩
  by_contra hlt
  have hk := hc.above hD (by omega) hT (k := Nat.clog 2 (max P.toNat 1 - R.toNat) + 1)
    (by rw [Nat.mul_comm]; exact Nat.le_of_not_lt hlt)
  rw [hp.1, hp.2] at hk
  have := Crowd.pow_blocks hD hk
  omega

/-- C119: with one association or addition per round, there are at most `⌊log₂ (max P 1 - R)⌋ + 1` tracks with
counts above `R`, and none if `max P 1 ≤ R`. -/
theorem C119_one (P R : BitVec 64) {rs : List (Round τ S C)} (hr : ∀ r ∈ rs, r.AtMost 1)
    (hn : rs.length + 2 < 2 ^ 64) {os : List (Outcome Unit)} {m : Manager τ}
    (h : Runs (Manager.new P R) (rs.flatMap Round.ops) os m) :
    numAbove m ≤ Nat.log 2 (max P.toNat 1 - R.toNat) + 1 ∧
      (max P.toNat 1 ≤ R.toNat → numAbove m = 0) := by
  have hu := Crowd.round_updates hr
  have hT := (rel_runs (rel_new P R) h (by rw [hu]; omega)).1
  rw [hu, Nat.zero_add] at hT
  have hc := Crowd.rounds_crowded one_pos (Crowd.crowded_new (τ := τ) 1 P.toNat R.toNat) hr
  have hp : m.promo.toNat = P.toNat ∧ m.removal.toNat = R.toNat := by
    rw [hT.promo, hT.removal]
    exact Crowd.rounds_thresholds _ hr
  have key : ∀ k, k + 1 ≤ numAbove m → 2 ^ k ≤ max P.toNat 1 - R.toNat := by
    intro k hk
    have := hc.above one_pos (by omega) hT (k := k) (by omega)
    rw [hp.1, hp.2] at this
    omega
  constructor
  · rcases Nat.eq_zero_or_pos (numAbove m) with h0 | h0
    · omega
    · have h1 := key (numAbove m - 1) (by omega)
      have h2 : 0 < 2 ^ (numAbove m - 1) := Nat.two_pow_pos _
      have := (Nat.le_log_iff_pow_le (b := 2) (by norm_num) (by omega)).2 h1
      omega
  · intro h0
    by_contra hc
    have := key 0 (by omega)
    omega

/-- C119: that many tracks are possible: for every promotion threshold below 2^62 and removal threshold 0 there
are rounds with one association or addition each after which `⌊log₂ P⌋ + 1` tracks are managed. -/
theorem C119_reached (mk : ℕ → τ) (hmk : Function.Injective fun i => TrackOps.uuid (mk i)) (P : BitVec 64)
    (hP : 0 < P.toNat) (hP' : P.toNat < 2 ^ 62) :
    ∃ rs : List (Round τ S C), (∀ r ∈ rs, r.AtMost 1) ∧ rs.length < 2 ^ 62 * 2 ∧
      ∃ os m, Runs (Manager.new P 0) (rs.flatMap Round.ops) os m ∧ numTracks m = Nat.log 2 P.toNat + 1 := by
  have hl : 2 ^ Nat.log 2 P.toNat ≤ P.toNat := Nat.pow_log_le_self 2 (by omega)
  obtain ⟨rs, h1, h2, h3⟩ := Crowd.staged_all (S := S) (C := C) P.toNat mk hmk hl (Nat.log 2 P.toNat + 1) le_rfl
  have hlen : rs.length < 2 ^ 62 * 2 := by
    have : 0 < 2 ^ (Nat.log 2 P.toNat + 1 - (Nat.log 2 P.toNat + 1)) := Nat.two_pow_pos _
    rw [pow_succ] at h2
    omega
  refine ⟨rs, h1, hlen, _, _, runs_run _ _, ?_⟩
  have hr := runs_run (rs.flatMap Round.ops) (Manager.new P 0 : Manager τ)
  have hu := Crowd.round_updates h1
  have hT := (rel_runs (rel_new P 0) hr (by rw [hu]; omega)).1
  exact Crowd.staged_numTracks hmk h3 hT

end

section
variable {S₁ C₁ S₂ C₂ : Type}

/-- C119 for the pipeline: the rounds may be completed periods with at most `D` detections each, in any order with
rounds of single calls. -/
theorem C119_periods {D : ℕ} (hD : 0 < D) (P R : BitVec 64)
    {visitor : Obj2 S₁ C₁ S₂ C₂ → Obj2 S₁ C₁ S₂ C₂ → Outcome (Obj2 S₁ C₁ S₂ C₂)}
    (hv : ∀ t d f, visitor t d = .ok f → SameObject t f)
    {align : ℝ → Obj2 S₁ C₁ S₂ C₂ → Outcome (Obj2 S₁ C₁ S₂ C₂)}
    (hal : ∀ time o o', align time o = .ok o' → SameObject o o') {n : ℕ} {m : Manager (Obj2 S₁ C₁ S₂ C₂)}
    (h : CrowdHistory visitor makeTrack2 align D (Manager.new P R) n m) (hn : n + 3 < 2 ^ 64) :
    numAbove m < D * (Nat.clog 2 (max P.toNat 1 - R.toNat) + 2) ∧ numTracks m ≤ numAbove m + D ∧
      (R = 0 → numTracks m = numAbove m) := by
  obtain ⟨T, hT, h1, h2, hc⟩ := Crowd.history_crowded hD (rel_new P R)
    (Crowd.crowded_new D P.toNat R.toNat) hv hal h hn
  have hp : m.promo.toNat = P.toNat ∧ m.removal.toNat = R.toNat := by
    rw [hT.promo, hT.removal]
    exact ⟨h1, h2⟩
  refine ⟨?_, (hc.all (by omega) hT).1, fun h0 => (hc.all (by omega) hT).2 (by rw [hp.2, h0]; rfl)⟩
  by_contra hlt
  have hk := hc.above hD (by omega) hT (k := Nat.clog 2 (max P.toNat 1 - R.toNat) + 1)
    (by rw [Nat.mul_comm]; exact Nat.le_of_not_lt hlt)
  rw [hp.1, hp.2] at hk
  have := Crowd.pow_blocks hD hk
  omega

/-- C119: so with at most 2^28 detections per period the number of pairs of tracks and detections always fits into
`size_t`, whatever the thresholds. -/
theorem C119_pairs_fit {D : ℕ} (hD : 0 < D) (hD' : D ≤ 2 ^ 28) (P R : BitVec 64)
    {visitor : Obj2 S₁ C₁ S₂ C₂ → Obj2 S₁ C₁ S₂ C₂ → Outcome (Obj2 S₁ C₁ S₂ C₂)}
    (hv : ∀ t d f, visitor t d = .ok f → SameObject t f)
    {align : ℝ → Obj2 S₁ C₁ S₂ C₂ → Outcome (Obj2 S₁ C₁ S₂ C₂)}
    (hal : ∀ time o o', align time o = .ok o' → SameObject o o') {n : ℕ} {m : Manager (Obj2 S₁ C₁ S₂ C₂)}
    (h : CrowdHistory visitor makeTrack2 align D (Manager.new P R) n m) (hn : n + 3 < 2 ^ 64)
    {ds : List (Obj2 S₁ C₁ S₂ C₂)} (hds : ds.length ≤ D) : numTracks m * ds.length < 2 ^ 64 := by
  obtain ⟨h1, h2, -⟩ := C119_periods hD P R hv hal h hn
  have hc : Nat.clog 2 (max P.toNat 1 - R.toNat) ≤ 64 := by
    rw [Nat.clog_le_iff_le_pow (by norm_num)]
    have := P.isLt
    omega
  have h3 : D * (Nat.clog 2 (max P.toNat 1 - R.toNat) + 2) ≤ 2 ^ 28 * 66 :=
    Nat.mul_le_mul hD' (by omega)
  calc numTracks m * ds.length ≤ (2 ^ 28 * 67) * 2 ^ 28 := Nat.mul_le_mul (by omega) (by omega)
    _ < 2 ^ 64 := by norm_num

end

/-- a history with a round that adds a track and a period that associates it and starts another one -/
example {solve : Solver} (hs : IsOptimalSolver solve) :
    ∃ m : Manager MotObj, CrowdHistory ciVisitor makeTrack2 (fun time o => predict2 o time hold hold) 2
      (Manager.new 3 0) 2 m ∧ m.Managed ⟨[8]⟩ ∧ numTracks m < 2 * (Nat.clog 2 3 + 2) := by
  obtain ⟨m', a, hr, hp, h1, h8⟩ := sample_period hs
  have hD : ([motCtrv 7, motCtra 8].map TrackOps.uuid).Nodup := by
    show [(⟨[7]⟩ : Uuid), ⟨[8]⟩].Nodup
    decide +kernel
  have hH : CrowdHistory ciVisitor makeTrack2 (fun time o => predict2 o time hold hold) 2
      (Manager.new 3 0) 2 m' :=
    .period (.round .start (r := ⟨.empty, [.add (motCtrv 1)]⟩)
      ⟨by simp [PlainCall], by simp [SMap.keys, SMap.empty, addedUuids]⟩ (runs_run _ _)) hs.perm hD
      (by simp) (show [motCtrv 1].length * [motCtrv 7, motCtra 8].length < 2 ^ 64 by simp) hp
  refine ⟨m', hH, ?_, ?_⟩
  · obtain ⟨-, h2, -⟩ := C100_period hr (by simp) hs.perm ciVisitor_same
      (fun o o' h => (C100_predict_same hold hold 5 o o' h).1) hD
      (show [motCtrv 1].length * [motCtrv 7, motCtra 8].length < 2 ^ 64 by simp) hp
    obtain ⟨d, hd, hu, hda⟩ := h8
    obtain ⟨y, -, ht, -⟩ := h2 d hd hda
    rw [hu] at ht
    exact ⟨_, (ht _).2 rfl⟩
  · obtain ⟨g1, -, g3⟩ := C119_periods (by norm_num) 3 0 ciVisitor_same
      (fun time o o' h => (C100_predict_same hold hold time o o' h).1) hH (by norm_num)
    rw [g3 rfl]
    exact g1

/-- with the promotion threshold 8, four tracks from one detection per round -/
example : ∃ rs : List (Round MotObj _ _), (∀ r ∈ rs, r.AtMost 1) ∧
    ∃ os m, Runs (Manager.new 8 0) (rs.flatMap Round.ops) os m ∧ numTracks m = 4 := by
  have hinj : Function.Injective fun i : ℕ => TrackOps.uuid
      (Sum.inl (sampleObj ⟨List.replicate i 0⟩ 0 0 1) : MotObj) := by
    intro i j hij
    have : List.replicate i (0 : Fin 256) = List.replicate j 0 := congrArg Uuid.value hij
    simpa using congrArg List.length this
  obtain ⟨rs, h1, -, os, m, h2, h3⟩ := C119_reached _ hinj 8 (by decide) (by decide)
  refine ⟨rs, h1, os, m, h2, h3.trans ?_⟩
  decide +kernel

end Mot.Props
