import Verif.Proofs.Scoring
/-!
# Properties C16–C18: scoring and gating
-/

namespace Mot.Props

section Scoring
variable {τ δ α S C S' C' : Type} [TrackOps τ S C] [TrackOps δ S' C']

/-! ## C16 -/

/-- C16: there is an entry for `(a, b)` iff some track with UUID `a` and some detection
with UUID `b` have a score. -/
theorem C16_entry_iff (tracks : List τ) (detections : List δ) (metric : τ → δ → Option α)
    (a b : Uuid) :
    ((scoreTracksAndDetections tracks detections metric).find? (mkPair a b)).isSome ↔
      ∃ t ∈ tracks, ∃ d ∈ detections,
        TrackOps.uuid t = a ∧ TrackOps.uuid d = b ∧ (metric t d).isSome :=
  score_isSome_iff metric tracks detections a b

/-- C16: with distinct UUIDs the entry of a pair is its score. -/
theorem C16_value_of_distinct (tracks : List τ) (detections : List δ)
    (metric : τ → δ → Option α) (hT : (tracks.map TrackOps.uuid).Nodup)
    (hD : (detections.map TrackOps.uuid).Nodup) {t : τ} {d : δ} (ht : t ∈ tracks)
    (hd : d ∈ detections) :
    (scoreTracksAndDetections tracks detections metric).find?
      (mkPair (TrackOps.uuid t) (TrackOps.uuid d)) = metric t d := by
  have inj : ∀ {β : Type} (f : β → Uuid) (l : List β), (l.map f).Nodup →
      ∀ x ∈ l, ∀ y ∈ l, f x = f y → x = y := by
    intro β f l hl x hx y hy he
    exact List.inj_on_of_nodup_map hl hx hy he
  ext s
  constructor
  · intro h
    obtain ⟨t₁, t', t₂, d₁, d', d₂, rfl, rfl, h1, h2, _, _⟩ := (score_find?_iff _ _ _ _ _).1 h
    have h1' := (Prod.mk.injEq _ _ _ _).mp
      (show (TrackOps.uuid t', TrackOps.uuid d') = (TrackOps.uuid t, TrackOps.uuid d) from h1)
    rw [← inj _ _ hT t' (by simp) t ht h1'.1, ← inj _ _ hD d' (by simp) d hd h1'.2]
    exact h2
  · intro h
    have := (score_isSome_iff metric tracks detections (TrackOps.uuid t) (TrackOps.uuid d)).2
      ⟨t, ht, d, hd, rfl, rfl, by rw [h]; rfl⟩
    obtain ⟨s', hs'⟩ := Option.isSome_iff_exists.1 this
    obtain ⟨t₁, t', t₂, d₁, d', d₂, rfl, rfl, h1, h2, _, _⟩ := (score_find?_iff _ _ _ _ _).1 hs'
    have h1' := (Prod.mk.injEq _ _ _ _).mp
      (show (TrackOps.uuid t', TrackOps.uuid d') = (TrackOps.uuid t, TrackOps.uuid d) from h1)
    rw [inj _ _ hT t' (by simp) t ht h1'.1, inj _ _ hD d' (by simp) d hd h1'.2, h] at h2
    cases h2
    exact hs'

/-- C16: with repeated UUIDs the entry is the score of the last scored pair with these
UUIDs in track-major order. -/
theorem C16_last_wins (tracks : List τ) (detections : List δ) (metric : τ → δ → Option α)
    (a b : Uuid) (s : α) :
    (scoreTracksAndDetections tracks detections metric).find? (mkPair a b) = some s ↔
      ∃ t₁ t t₂ d₁ d d₂, tracks = t₁ ++ t :: t₂ ∧ detections = d₁ ++ d :: d₂ ∧
        TrackOps.uuid t = a ∧ TrackOps.uuid d = b ∧ metric t d = some s ∧
        (∀ d' ∈ d₂, TrackOps.uuid d' = b → metric t d' = none) ∧
        (∀ t' ∈ t₂, TrackOps.uuid t' = a → ∀ d' ∈ detections, TrackOps.uuid d' = b →
          metric t' d' = none) := by
  have pair : ∀ (t : τ) (d : δ), mkPair (TrackOps.uuid t) (TrackOps.uuid d) = mkPair a b ↔
      TrackOps.uuid t = a ∧ TrackOps.uuid d = b := fun t d => by
    show (TrackOps.uuid t, TrackOps.uuid d) = (a, b) ↔ _
    simp
  rw [score_find?_iff]
  constructor
  · rintro ⟨t₁, t, t₂, d₁, d, d₂, rfl, rfl, h1, h2, h3, h4⟩
    obtain ⟨ha, hb⟩ := (pair t d).1 h1
    exact ⟨t₁, t, t₂, d₁, d, d₂, rfl, rfl, ha, hb, h2,
      fun d' hd' h => h3 d' hd' ((pair t d').2 ⟨ha, h⟩),
      fun t' ht' h d' hd' h' => h4 t' ht' d' hd' ((pair t' d').2 ⟨h, h'⟩)⟩
  · rintro ⟨t₁, t, t₂, d₁, d, d₂, rfl, rfl, ha, hb, h2, h3, h4⟩
    exact ⟨t₁, t, t₂, d₁, d, d₂, rfl, rfl, (pair t d).2 ⟨ha, hb⟩, h2,
      fun d' hd' h => h3 d' hd' ((pair t d').1 h).2,
      fun t' ht' d' hd' h => h4 t' ht' ((pair t' d').1 h).1 d' hd' ((pair t' d').1 h).2⟩

end Scoring

/-- sample objects -/
def obj (n : Fin 256) (x : ℕ) : DynObj ℕ ℕ := ⟨0, x, 3, ⟨[n]⟩, .unknown⟩

example : ((([obj 1 5, obj 2 6] : List (DynObj ℕ ℕ)).map TrackOps.uuid).Nodup) ∧
    (([obj 8 1, obj 9 2] : List (DynObj ℕ ℕ)).map TrackOps.uuid).Nodup ∧
    (scoreTracksAndDetections [obj 1 5, obj 2 6] [obj 8 1, obj 9 2]
      (fun t d => if t.state = 6 then none else some (t.state - d.state))).entries
      = [(mkPair ⟨[1]⟩ ⟨[8]⟩, 4), (mkPair ⟨[1]⟩ ⟨[9]⟩, 3)] := by
  refine ⟨?_, ?_, ?_⟩ <;> decide +kernel

/-- repeated UUIDs: the later object wins -/
example : (scoreTracksAndDetections [obj 1 5, obj 1 6] [obj 8 1]
      (fun t d => some (t.state - d.state))).entries = [(mkPair ⟨[1]⟩ ⟨[8]⟩, 5)] := by
  decide +kernel

/-! ## C17 -/

section Variants
variable {S₁ C₁ S₂ C₂ α : Type}

/-- C17: the Euclidean score of two variant objects exists iff they hold the same
alternative, and is then the distance of the two states. -/
theorem C17_euclidean_some_iff (d₁ : S₁ → S₁ → α) (d₂ : S₂ → S₂ → α)
    (t d : Obj2 S₁ C₁ S₂ C₂) (s : α) :
    euclideanScore d₁ d₂ t d = some s ↔
      (∃ a b, t = .inl a ∧ d = .inl b ∧ s = d₁ a.state b.state) ∨
      (∃ a b, t = .inr a ∧ d = .inr b ∧ s = d₂ a.state b.state) := by
  cases t <;> cases d <;> simp [euclideanScore, scoreVariant, eq_comm]

/-- C17: likewise for the Mahalanobis score, which uses the covariance of the track. -/
theorem C17_mahalanobis_some_iff (d₁ : S₁ → C₁ → S₁ → α) (d₂ : S₂ → C₂ → S₂ → α)
    (t d : Obj2 S₁ C₁ S₂ C₂) (s : α) :
    mahalanobisScore d₁ d₂ t d = some s ↔
      (∃ a b, t = .inl a ∧ d = .inl b ∧ s = d₁ a.state a.covariance b.state) ∨
      (∃ a b, t = .inr a ∧ d = .inr b ∧ s = d₂ a.state a.covariance b.state) := by
  cases t <;> cases d <;> simp [mahalanobisScore, scoreVariant, eq_comm]

/-- C17: with distinct UUIDs, a score map has an entry for a pair of objects iff they
use the same motion model (both metrics). -/
theorem C17_no_cross_model_entry (metric : Obj2 S₁ C₁ S₂ C₂ → Obj2 S₁ C₁ S₂ C₂ → Option α)
    (hm : (∃ d₁ d₂, metric = euclideanScore d₁ d₂) ∨ (∃ d₁ d₂, metric = mahalanobisScore d₁ d₂))
    (tracks detections : List (Obj2 S₁ C₁ S₂ C₂))
    (hT : (tracks.map TrackOps.uuid).Nodup) (hD : (detections.map TrackOps.uuid).Nodup)
    {t d : Obj2 S₁ C₁ S₂ C₂} (ht : t ∈ tracks) (hd : d ∈ detections) :
    ((scoreTracksAndDetections tracks detections metric).find?
      (mkPair (TrackOps.uuid t) (TrackOps.uuid d))).isSome ↔ t.isLeft = d.isLeft := by
  rw [C16_value_of_distinct tracks detections metric hT hD ht hd]
  rcases hm with ⟨d₁, d₂, rfl⟩ | ⟨d₁, d₂, rfl⟩ <;> cases t <;> cases d <;>
    simp [euclideanScore, mahalanobisScore, scoreVariant]

end Variants

example : let t : Obj2 ℕ ℕ ℕ ℕ := .inl (obj 1 5)
    let d : Obj2 ℕ ℕ ℕ ℕ := .inr (obj 8 5)
    let d' : Obj2 ℕ ℕ ℕ ℕ := .inl (obj 9 1)
    (([t].map TrackOps.uuid).Nodup ∧ ([d, d'].map TrackOps.uuid).Nodup) ∧
    (scoreTracksAndDetections [t] [d, d'] (euclideanScore (fun a b => a - b) (fun a b => a + b))).entries
      = [(mkPair ⟨[1]⟩ ⟨[9]⟩, 4)] := by
  decide +kernel

/-! ## C18 -/

/-- C18: exactly the entries whose score satisfies the predicate are removed; the others
keep their value. -/
theorem C18_prune_iff {α : Type} (scores : ScoreMapOf α) (p : α → Bool) (k : UuidPair) (s : α) :
    (pruneScoresIf scores p).find? k = some s ↔ scores.find? k = some s ∧ p s = false := by
  unfold pruneScoresIf pruneScoresIfS
  rw [find?_foldl_erase]
  have : k ∈ keysToPrune (fun (_ : Unit) a => (p a, ())) () scores.entries ↔
      ∃ a, scores.find? k = some a ∧ p a = true := by
    rw [mem_keysToPrune]
    constructor
    · rintro ⟨l₁, a, l₂, he, h⟩
      exact ⟨a, SMap.find?_eq_some.2 (by rw [he]; simp), h⟩
    · rintro ⟨a, ha, h⟩
      obtain ⟨l₁, l₂, he⟩ := List.append_of_mem (SMap.find?_eq_some.1 ha)
      exact ⟨l₁, a, l₂, he, h⟩
  simp only [this]
  constructor
  · intro h
    split at h
    · simp at h
    · rename_i hne
      refine ⟨h, ?_⟩
      by_contra hp
      exact hne ⟨s, h, by simpa using hp⟩
  · rintro ⟨h, hp⟩
    rw [if_neg]
    · exact h
    · rintro ⟨a, ha, hpa⟩
      rw [h] at ha; cases ha; rw [hp] at hpa; simp at hpa

/-- C18: pruning twice is the same as pruning once. -/
theorem C18_prune_idempotent {α : Type} (scores : ScoreMapOf α) (p : α → Bool) :
    pruneScoresIf (pruneScoresIf scores p) p = pruneScoresIf scores p := by
  refine SMap.ext_find? fun k => ?_
  ext s
  rw [C18_prune_iff, C18_prune_iff]
  tauto

/-- C18: pruning with two predicates commutes and amounts to their disjunction. -/
theorem C18_prune_comp {α : Type} (scores : ScoreMapOf α) (p q : α → Bool) :
    pruneScoresIf (pruneScoresIf scores p) q = pruneScoresIf scores (fun a => p a || q a) := by
  refine SMap.ext_find? fun k => ?_
  ext s
  simp only [C18_prune_iff, Bool.or_eq_false_iff]
  tauto

/-- C18, predicates with state: the predicate sees the scores once each, in key order,
and an entry survives iff the predicate said no in the state reached at that entry. -/
theorem C18_prune_stateful {α σ : Type} (scores : ScoreMapOf α) (s₀ : σ)
    (pred : σ → α → Bool × σ) (k : UuidPair) (s : α) :
    (pruneScoresIfS scores s₀ pred).find? k = some s ↔
      ∃ l₁ l₂, scores.entries = l₁ ++ (k, s) :: l₂ ∧
        (pred ((l₁.map (·.2)).foldl (fun st a => (pred st a).2) s₀) s).1 = false := by
  unfold pruneScoresIfS
  rw [find?_foldl_erase]
  have hk := mem_keysToPrune pred s₀ scores.entries k
  have uniq : ∀ {l₁ a l₂ l₁' a' l₂'}, scores.entries = l₁ ++ (k, a) :: l₂ →
      scores.entries = l₁' ++ (k, a') :: l₂' → l₁ = l₁' ∧ a = a' := by
    intro l₁ a l₂ l₁' a' l₂' h h'
    have hn := scores.nodup_keys
    have key : ∀ (x y x' y' : List (UuidPair × α)) (a a' : α),
        ((x ++ (k, a) :: y).map (·.1)).Nodup → x ++ (k, a) :: y = x' ++ (k, a') :: y' →
        x = x' ∧ a = a' := by
      intro x
      induction x with
      | nil =>
        intro y x' y' a a' hn he
        cases x' with
        | nil => simp at he; exact ⟨rfl, he.1⟩
        | cons b x' =>
          simp only [List.nil_append, List.cons_append, List.cons.injEq] at he
          obtain ⟨rfl, rfl⟩ := he
          simp at hn
      | cons b x ih =>
        intro y x' y' a a' hn he
        cases x' with
        | nil =>
          simp only [List.nil_append, List.cons_append, List.cons.injEq] at he
          obtain ⟨rfl, rfl⟩ := he
          simp at hn
        | cons b' x' =>
          simp only [List.cons_append, List.cons.injEq] at he
          obtain ⟨rfl, he⟩ := he
          have hn' : ((x ++ (k, a) :: y).map (·.1)).Nodup := by
            rw [List.cons_append, List.map_cons, List.nodup_cons] at hn; exact hn.2
          obtain ⟨rfl, rfl⟩ := ih y x' y' a a' hn' he
          exact ⟨rfl, rfl⟩
    exact key _ _ _ _ _ _ (h ▸ hn) (h ▸ h')
  have fm : ∀ l : List (UuidPair × α),
      (l.map (·.2)).foldl (fun st a => (pred st a).2) s₀
        = l.foldl (fun st e => (pred st e.2).2) s₀ := by
    intro l; rw [List.foldl_map]
  constructor
  · intro h
    split at h
    · simp at h
    · rename_i hne
      obtain ⟨l₁, l₂, he⟩ := List.append_of_mem (SMap.find?_eq_some.1 h)
      refine ⟨l₁, l₂, he, ?_⟩
      by_contra hp
      exact hne (hk.2 ⟨l₁, s, l₂, he, by rw [← fm]; simpa using hp⟩)
  · rintro ⟨l₁, l₂, he, hp⟩
    rw [if_neg]
    · exact SMap.find?_eq_some.2 (by rw [he]; simp)
    · intro hmem
      obtain ⟨l₁', a, l₂', he', hp'⟩ := hk.1 hmem
      obtain ⟨rfl, rfl⟩ := uniq he he'
      rw [fm, hp'] at hp; simp at hp

/-- sample score map with three entries -/
def scores3 : ScoreMapOf ℕ :=
  ((SMap.empty.set (mkPair ⟨[2]⟩ ⟨[1]⟩) 30).set (mkPair ⟨[1]⟩ ⟨[2]⟩) 20).set (mkPair ⟨[1]⟩ ⟨[1]⟩) 10

example : (pruneScoresIf scores3 (fun a => decide (a > 15))).entries = [(mkPair ⟨[1]⟩ ⟨[1]⟩, 10)] := by
  decide +kernel

/-- a predicate with state: prune every second score -/
example : (pruneScoresIfS scores3 false (fun s (_ : ℕ) => (s, !s))).entries
    = [(mkPair ⟨[1]⟩ ⟨[1]⟩, 10), (mkPair ⟨[2]⟩ ⟨[1]⟩, 30)] := by
  decide +kernel

end Mot.Props
