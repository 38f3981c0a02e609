import Verif.Proofs.FloatPipeline
import Verif.Props.FloatCi
import Verif.Props.Period
/-!
# NaN in the pipeline as it is computed (C101)
-/

namespace Mot.Props

open Mot Spec Manager Matrix

variable {m : Libm}

/-- C101: one NaN among the numbers of a state, and after any prediction the position is not a pair of
numbers any more. -/
theorem C101_predict {o o' : FObj m} (h : PredictsF o o') (hn : FP.nan ∈ numbers o) :
    FP.nan ∈ position o' := h.nan hn

/-- C101: one NaN among the numbers of the track or the detection, or as weight, and all numbers of
the fused state are NaN. -/
theorem C101_fuse {E : EigenF} {t d f : FObj m} (h : FusesF E t d f)
    (hn : FP.nan ∈ numbers t ∨ FP.nan ∈ numbers d ∨ fusionWeight E t d = some .nan) :
    ∀ c ∈ numbers f, c = .nan := h.nan hn

/-- C101: the Euclidean score is NaN if a coordinate is. -/
theorem C101_euclid : NanScores (m := m) (euclidMetric CtrvStateF.pose CtraStateF.pose) := by
  intro t d hk hn
  cases t <;> cases d
  · refine congrArg some (C85_nan _ _ ?_)
    simp only [position, List.mem_cons, List.not_mem_nil, or_false, CtrvStateF.pose] at hn ⊢
    rcases hn with (h | h) | h | h <;> simp [← h]
  · exact absurd hk (by simp)
  · exact absurd hk (by simp)
  · refine congrArg some (C85_nan _ _ ?_)
    simp only [position, List.mem_cons, List.not_mem_nil, or_false, CtraStateF.pose] at hn ⊢
    rcases hn with (h | h) | h | h <;> simp [← h]

/-- C101: the Mahalanobis score is NaN if a coordinate is, whatever the covariances. -/
theorem C101_mahalanobis {cov₁ : Matrix (Fin 5) (Fin 5) FP → Fin 3 → Fin 3 → FP}
    {cov₂ : Matrix (Fin 6) (Fin 6) FP → Fin 3 → Fin 3 → FP}
    {f₁ : CtrvStateF m → Matrix (Fin 5) (Fin 5) FP → CtrvStateF m → FP}
    {f₂ : CtraStateF m → Matrix (Fin 6) (Fin 6) FP → CtraStateF m → FP}
    (h₁ : ComputesMahalanobis CtrvStateF.pose cov₁ f₁)
    (h₂ : ComputesMahalanobis CtraStateF.pose cov₂ f₂) :
    NanScores (m := m) (mahalanobisScore f₁ f₂) := by
  intro t d hk hn
  cases t <;> cases d
  · refine congrArg some (C97_nan_pose (h₁ _ _ _) ?_)
    simp only [position, List.mem_cons, List.not_mem_nil, or_false] at hn
    rcases hn with (h | h) | h | h
    · exact ⟨0, .inl h.symm⟩
    · exact ⟨1, .inl h.symm⟩
    · exact ⟨0, .inr h.symm⟩
    · exact ⟨1, .inr h.symm⟩
  · exact absurd hk (by simp)
  · exact absurd hk (by simp)
  · refine congrArg some (C97_nan_pose (h₂ _ _ _) ?_)
    simp only [position, List.mem_cons, List.not_mem_nil, or_false] at hn
    rcases hn with (h | h) | h | h
    · exact ⟨0, .inl h.symm⟩
    · exact ⟨1, .inl h.symm⟩
    · exact ⟨0, .inr h.symm⟩
    · exact ⟨1, .inr h.symm⟩

/-- C101: no threshold removes a NaN score. -/
theorem C101_gate (g : FP) : FP.gt .nan g = false := by cases g <;> rfl

/-- C101: associating a track whose position is not a pair of numbers with a detection of its kind,
or the other way round, is undefined behaviour, for any solver. -/
theorem C101_associate_ub (solve : Solver) {metric : FObj m → FObj m → Option FP}
    (hm : NanScores metric) {gate : FP → Bool} (hg : gate .nan = false) {tracks detections : List (FObj m)}
    (hT : (tracks.map TrackOps.uuid).Nodup) (hD : (detections.map TrackOps.uuid).Nodup)
    {t d : FObj m} (ht : t ∈ tracks) (hd : d ∈ detections) (hk : t.isLeft = d.isLeft)
    (hn : FP.nan ∈ position t ∨ FP.nan ∈ position d) :
    (associateStep solve metric gate tracks detections).IsUb := by
  have hfind := C16_value_of_distinct tracks detections metric hT hD ht hd
  rw [hm t d hk hn] at hfind
  have hub := C23_nonfinite_is_ub solve _
    ((C18_prune_iff _ gate _ _).2 ⟨hfind, hg⟩) (by simp)
  unfold associateStep associateDetectionsToTracks
  rcases hx : gnnAssociator solve (pruneScoresIf (scoreTracksAndDetections tracks detections metric) gate)
    with _ | _ | _ <;> rw [hx] at hub <;> simp at hub ⊢

theorem forall₂_partner {α β : Type} {R : α → β → Prop} {l : List α} {l' : List β}
    (h : List.Forall₂ R l l') {x : α} (hx : x ∈ l) : ∃ y ∈ l', R x y := by
  induction h with
  | nil => simp at hx
  | cons hr _ ih =>
    rcases List.mem_cons.1 hx with rfl | hx
    · exact ⟨_, List.mem_cons_self, hr⟩
    · obtain ⟨y, hy, h⟩ := ih hx
      exact ⟨y, List.mem_cons_of_mem _ hy, h⟩

/-- the association of the predicted objects -/
theorem nan_associate {solve : Solver} {metric : FObj m → FObj m → Option FP}
    (hm : NanScores metric) {gate : FP → Bool} (hg : gate .nan = false)
    {align : FObj m → Outcome (FObj m)} (hal : ∀ o o', align o = .ok o' → SameObject o o')
    {ts ds ts' ds' : List (FObj m)}
    (hT : (ts.map TrackOps.uuid).Nodup) (hD : (ds.map TrackOps.uuid).Nodup)
    (h1 : List.Forall₂ (fun o o' => align o = .ok o') ds ds')
    (h2 : List.Forall₂ (fun o o' => align o = .ok o') ts ts')
    {t d : FObj m} (ht : t ∈ ts) (hd : d ∈ ds) (hk : t.isLeft = d.isLeft)
    (hn : (∀ t', align t = .ok t' → FP.nan ∈ position t') ∨ ∀ d', align d = .ok d' → FP.nan ∈ position d') :
    (associateStep solve metric gate ts' ds').IsUb := by
  obtain ⟨x, hx, htx⟩ := forall₂_partner h2 ht
  obtain ⟨y, hy, hdy⟩ := forall₂_partner h1 hd
  have px := hal _ _ htx
  have py := hal _ _ hdy
  refine C101_associate_ub solve hm hg (t := x) (d := y) ?_ ?_ hx hy ?_ ?_
  · rw [SameObject.uuids (h2.imp fun a b h => hal a b h)]; exact hT
  · rw [SameObject.uuids (h1.imp fun a b h => hal a b h)]; exact hD
  · rw [px.model, py.model, hk]
  · exact hn.imp (fun h => h x htx) fun h => h y hdy

theorem nan_period {mgr : Manager (FObj m)} (hT : (mgr.getAllTracks.map TrackOps.uuid).Nodup)
    (solve : Solver) {metric : FObj m → FObj m → Option FP}
    (hm : NanScores metric) {gate : FP → Bool} (hg : gate .nan = false)
    (visitor : FObj m → FObj m → Outcome (FObj m)) (make : FObj m → FObj m)
    {align : FObj m → Outcome (FObj m)} (hal : ∀ o o', align o = .ok o' → SameObject o o')
    {ds : List (FObj m)} (hds : (ds.map TrackOps.uuid).Nodup)
    (hok : ∀ o ∈ ds ++ mgr.getAllTracks, ∃ o', align o = .ok o')
    {t d : FObj m} (ht : t ∈ mgr.getAllTracks) (hd : d ∈ ds) (hk : t.isLeft = d.isLeft)
    (hnan : (∀ t', align t = .ok t' → FP.nan ∈ position t') ∨ ∀ d', align d = .ok d' → FP.nan ∈ position d') :
    (period solve metric gate visitor make align ds mgr).2.IsUb ∧
    (period solve metric gate visitor make align ds mgr).1 = mgr := by
  have hmap : ∀ l : List (FObj m), (∀ o ∈ l, ∃ o', align o = .ok o') →
      ∃ l', List.Forall₂ (fun o o' => align o = .ok o') l l' := by
    intro l hl
    induction l with
    | nil => exact ⟨[], .nil⟩
    | cons o l ih =>
      obtain ⟨o', ho⟩ := hl o List.mem_cons_self
      obtain ⟨l', hl'⟩ := ih fun x hx => hl x (List.mem_cons_of_mem _ hx)
      exact ⟨o' :: l', .cons ho hl'⟩
  obtain ⟨ds', h1⟩ := hmap ds fun o ho => hok o (List.mem_append_left _ ho)
  obtain ⟨ts', h2⟩ := hmap mgr.getAllTracks fun o ho => hok o (List.mem_append_right _ ho)
  have hub := nan_associate (solve := solve) hm hg hal hT hds h1 h2 ht hd hk hnan
  rw [← Outcome.mapM'_ok_iff] at h1 h2
  unfold period
  rw [h1, h2]
  simp only
  rw [Act.andThen]
  unfold cycleOn
  rcases hx : associateStep solve metric gate ts' ds' with a | e | w
  · rw [hx] at hub; simp at hub
  · rw [hx] at hub; simp at hub
  · simp

/-- C101: a period with a track and a detection of the same kind, one of them with a NaN in its state,
has undefined behaviour if all predictions succeed; nothing has been stored then.  Whatever the
solver, the fusion, the parameters and the durations of the predictions. -/
theorem C101_period_ub {n : ℕ} {mgr : Manager (FObj m)} (hr : ReachableIn _ _ n mgr)
    (hn : n + 2 < 2 ^ 64) (solve : Solver) {metric : FObj m → FObj m → Option FP}
    (hm : NanScores metric) {gate : FP → Bool} (hg : gate .nan = false)
    (visitor : FObj m → FObj m → Outcome (FObj m)) (make : FObj m → FObj m)
    {align : FObj m → Outcome (FObj m)} (hal : ∀ o o', align o = .ok o' → PredictsF o o')
    {ds : List (FObj m)} (hds : (ds.map TrackOps.uuid).Nodup)
    (hok : ∀ o ∈ ds ++ mgr.getAllTracks, ∃ o', align o = .ok o')
    {t d : FObj m} (ht : t ∈ mgr.getAllTracks) (hd : d ∈ ds) (hk : t.isLeft = d.isLeft)
    (hnan : FP.nan ∈ numbers t ∨ FP.nan ∈ numbers d) :
    (period solve metric gate visitor make align ds mgr).2.IsUb ∧
    (period solve metric gate visitor make align ds mgr).1 = mgr := by
  obtain ⟨T, h⟩ := reachable_rel hr hn
  exact nan_period h.nodup solve hm hg visitor make (fun o o' h => (hal o o' h).same) hds hok ht hd hk
    (hnan.imp (fun h t' ht' => (hal _ _ ht').nan h) fun h d' hd' => (hal _ _ hd').nan h)

/-- C101: so if a period completes, no detection is of the kind of a track with a NaN.  Unless a
detection with its UUID starts a new track, such a track is not associated, keeps its state and loses
one count; it is removed if its count reaches the removal threshold. -/
theorem C101_completed {n : ℕ} {mgr mgr' : Manager (FObj m)} (hr : ReachableIn _ _ n mgr)
    (hn : n + 3 < 2 ^ 64) {solve : Solver} (hs : IsPermSolver solve)
    {metric : FObj m → FObj m → Option FP}
    (hm : NanScores metric) {gate : FP → Bool} (hg : gate .nan = false) {E : EigenF}
    {visitor : FObj m → FObj m → Outcome (FObj m)} (hv : ∀ t d f, visitor t d = .ok f → FusesF E t d f)
    {align : FObj m → Outcome (FObj m)} (hal : ∀ o o', align o = .ok o' → PredictsF o o')
    {ds : List (FObj m)} (hds : (ds.map TrackOps.uuid).Nodup)
    (hbig : mgr.getAllTracks.length * ds.length < 2 ^ 64) {a : AssociationMap}
    (hp : period solve metric gate visitor makeTrack2 align ds mgr = (mgr', .ok a))
    {u : Uuid} {t : FObj m} (ht : mgr.HasTrack u t) (hnan : FP.nan ∈ numbers t) :
    (∀ d ∈ ds, d.isLeft ≠ t.isLeft) ∧
    (¬ Starts a ds u → u ∉ a.keys ∧
      ∀ t', mgr'.HasTrack u t' ↔ t' = t ∧ mgr.removal.toNat < mgr.counter u - 1) := by
  obtain ⟨T, h⟩ := reachable_rel hr (by omega)
  obtain ⟨⟨ds', ts', h1, h2, h3⟩, -, hin, hout, -⟩ := C100_period hr hn hs
    (fun t d f hf => (hv t d f hf).same) (fun o o' ho => (hal o o' ho).same) hds hbig hp
  have hkind : ∀ d ∈ ds, d.isLeft ≠ t.isLeft := by
    intro d hd hk
    have := nan_associate (solve := solve) hm hg (fun o o' h => (hal o o' h).same) h.nodup hds h1 h2 ht.1 hd hk.symm
      (.inl fun t' ht' => (hal _ _ ht').nan hnan)
    rw [h3] at this
    simp at this
  have huniq : ∀ t', mgr.HasTrack u t' → t' = t := by
    intro t' ht'
    obtain ⟨e, he, rfl⟩ := h.hasTrack.1 ht
    obtain ⟨e', he', rfl⟩ := h.hasTrack.1 ht'
    rw [he] at he'; cases he'; rfl
  refine ⟨hkind, fun hst => ?_⟩
  have hu : u ∉ a.keys := by
    intro hu
    obtain ⟨t₀, x, d, hd, y, f, ht₀, hx, hy, -, hvf, -⟩ := hin u hu hst
    have e := huniq _ ht₀
    subst e
    refine hkind d hd ?_
    have hx' := (hal _ _ hx).same.model
    have hy' := (hal _ _ hy).same.model
    rw [← hx', ← hy']
    cases hv _ _ _ hvf <;> rfl
  refine ⟨hu, fun t' => ?_⟩
  rw [hout u hu hst t']
  constructor
  · rintro ⟨h1, h2⟩; exact ⟨huniq _ h1, h2⟩
  · rintro ⟨rfl, h2⟩; exact ⟨ht, h2⟩

/-- C101: from one fusion to undefined behaviour.  If in a completed period an associated track is
fused with weight NaN (see `C98_overflow` and `C98_underflow`), or with a NaN in a state, then its
numbers are all NaN afterwards, and the next period with a detection of its kind, if the predictions
succeed, is undefined. -/
theorem C101_next_period {n : ℕ} {mgr mgr' : Manager (FObj m)} (hr : ReachableIn _ _ n mgr)
    (hn : n + 3 < 2 ^ 64) {solve solve' : Solver} (hs : IsPermSolver solve)
    {metric metric' : FObj m → FObj m → Option FP} {gate gate' : FP → Bool} {E : EigenF}
    {visitor visitor' : FObj m → FObj m → Outcome (FObj m)} {make' : FObj m → FObj m}
    (hv : ∀ t d f, visitor t d = .ok f → FusesF E t d f)
    {align align' : FObj m → Outcome (FObj m)} (hal : ∀ o o', align o = .ok o' → PredictsF o o')
    {ds ds' : List (FObj m)} (hds : (ds.map TrackOps.uuid).Nodup)
    (hbig : mgr.getAllTracks.length * ds.length < 2 ^ 64) {a : AssociationMap}
    (hp : period solve metric gate visitor makeTrack2 align ds mgr = (mgr', .ok a))
    {u : Uuid} (hu : u ∈ a.keys) (hst : ¬ Starts a ds u)
    (hw : ∀ t d x y, mgr.HasTrack u t → d ∈ ds → a.find? u = some [TrackOps.uuid d] →
      align t = .ok x → align d = .ok y →
      FP.nan ∈ numbers x ∨ FP.nan ∈ numbers y ∨ fusionWeight E x y = some .nan)
    {t' : FObj m} (ht' : mgr'.HasTrack u t') :
    (∀ c ∈ numbers t', c = .nan) ∧
    (NanScores metric' → gate' .nan = false → (∀ o o', align' o = .ok o' → PredictsF o o') →
      (ds'.map TrackOps.uuid).Nodup → (∀ o ∈ ds' ++ mgr'.getAllTracks, ∃ o', align' o = .ok o') →
      (∃ d ∈ ds', d.isLeft = t'.isLeft) →
      (period solve' metric' gate' visitor' make' align' ds' mgr').2.IsUb) := by
  have hv' := fun t d f hf => (hv t d f hf).same
  have hal' := fun o o' ho => (hal o o' ho).same
  obtain ⟨T, h⟩ := reachable_rel hr (by omega)
  obtain ⟨T', h', -⟩ := period_rel hn h hs hv' hal' hds hbig hp
  obtain ⟨-, -, hin, -⟩ := C100_period hr hn hs hv' hal' hds hbig hp
  obtain ⟨t, x, d, hd, y, f, ht, hx, hy, hl, hvf, hiff⟩ := hin u hu hst
  have hf : t' = f := ((hiff t').1 ht').1
  subst hf
  have hall := (hv _ _ _ hvf).nan (hw t d x y ht hd hl hx hy)
  refine ⟨hall, fun hm hg hal₂ hds₂ hok ⟨d₂, hd₂, hk⟩ => ?_⟩
  have hnan : FP.nan ∈ numbers t' := by
    cases t' with
    | inl o => rw [← hall o.state.x (by simp [numbers])]; simp [numbers]
    | inr o => rw [← hall o.state.x (by simp [numbers])]; simp [numbers]
  exact (nan_period h'.nodup solve' hm hg visitor' make' (fun o o' h => (hal₂ o o' h).same) hds₂ hok ht'.1 hd₂ hk.symm
    (.inl fun t' ht' => (hal₂ _ _ ht').nan hnan)).1

/-! ### Examples -/

/-- headings are kept as they are; good for angles from 0 to π -/
def plainLibm : Libm := ⟨FP, id, fun _ => .fin 1, id, id⟩

section
variable {S : Type} {n : ℕ} [MotionModelF S n]

/-- the prediction with all sums taken from left to right -/
def predictLeft (s : S) (L : Matrix (Fin n) (Fin n) FP) (dt α β κ : FP) :
    S × Matrix (Fin n) (Fin n) FP :=
  let lam := lambdaF n α κ
  let w := weightsF n α β lam
  let rows := predictedRowsF s L dt lam
  let x : Fin n → FP := fun j => leftSum (List.zipWith (FP.mul binary32) w.1 (rows.map (· j)))
  (MotionModelF.ofVec x, fun j k => leftSum (List.zipWith (FP.mul binary32)
    ((rows.map (· j)).map fun a => FP.sub binary32 a (x j))
    (List.zipWith (FP.mul binary32) w.2 ((rows.map (· k)).map fun a => FP.sub binary32 a (x k)))))

theorem predictLeft_spec (s : S) (L : Matrix (Fin n) (Fin n) FP) (dt α β κ : FP) :
    IsTransformF α κ β s L dt (predictLeft s L dt α β κ).1 (predictLeft s L dt α β κ).2 := by
  have hr : predictedRowsF s L dt (lambdaF n α κ) ≠ [] := by
    intro h
    have := rows_length s L dt (lambdaF n α κ)
    rw [h] at this
    simp at this
  obtain ⟨r, rs, hrs⟩ := List.exists_cons_of_ne_nil hr
  exact ⟨_, fun j => leftSum_sums (by rw [hrs]; simp [weightsF]),
    fun j k => leftSum_sums (by rw [hrs]; simp [weightsF]), rfl⟩

end

/-- prediction over no time with standard deviations of 2⁻¹³ -/
def stay : FObj plainLibm → FObj plainLibm
  | .inl o =>
    let r := predictLeft o.state (diagonalF fun _ => .fin (1 / 2 ^ 13)) (.fin 0) (.fin 1) (.fin 0) (.fin 11)
    .inl { o with state := r.1, covariance := r.2 }
  | .inr o =>
    let r := predictLeft o.state (diagonalF fun _ => .fin (1 / 2 ^ 13)) (.fin 0) (.fin 1) (.fin 0) (.fin 10)
    .inr { o with state := r.1, covariance := r.2 }

theorem stay_predicts (o : FObj plainLibm) : PredictsF o (stay o) := by
  cases o
  · exact .ctrv rfl rfl (predictLeft_spec _ _ _ _ _ _)
  · exact .ctra rfl rfl (predictLeft_spec _ _ _ _ _ _)

/-- fusion of objects of the same kind -/
noncomputable def fuseSame (t d : FObj plainLibm) : Outcome (FObj plainLibm) :=
  open Classical in if h : ∃ f, FusesF diagonalEigen t d f then .ok h.choose else .ub .sizeMismatch

theorem fuseSame_fuses (t d f : FObj plainLibm) (h : fuseSame t d = .ok f) :
    FusesF diagonalEigen t d f := by
  unfold fuseSame at h
  split at h
  · next hx => cases h; exact hx.choose_spec
  · cases h

/-- a CTRV object at (`x`, 20) with variances of 2⁻²⁶ -/
noncomputable def preciseObj (u : Fin 256) (x : ℚ) : FObj plainLibm :=
  .inl ⟨0, ⟨.fin x, .fin 20, .fin 2, (.fin 1 : FP), .fin (1 / 2)⟩,
    diagonalF fun _ => .fin (1 / 2 ^ 26), ⟨[u]⟩, .unknown⟩

/-- the covariance of the predicted object -/
def preciseCov (x : ℚ) (i j : Fin 5) : FP :=
  (predictLeft (S := CtrvStateF plainLibm) ⟨.fin x, .fin 20, .fin 2, (.fin 1 : FP), .fin (1 / 2)⟩
    (diagonalF fun _ => .fin (1 / 2 ^ 13)) (.fin 0) (.fin 1) (.fin 0) (.fin 11)).2 i j

/-- the predicted variances are the same -/
theorem stay_cov (u : Fin 256) :
    (∃ o, stay (preciseObj u 10) = .inl o ∧ o.covariance = diagonalF fun _ => .fin (1 / 2 ^ 26)) ∧
    (∃ o, stay (preciseObj u 11) = .inl o ∧ o.covariance = diagonalF fun _ => .fin (1 / 2 ^ 26)) := by
  have key : ∀ i j : Fin 5,
      preciseCov 10 i j = (if i = j then .fin (1 / 2 ^ 26) else .fin 0) ∧
      preciseCov 11 i j = (if i = j then .fin (1 / 2 ^ 26) else .fin 0) := by
    decide +kernel
  exact ⟨⟨_, rfl, funext fun i => funext fun j => (key i j).1⟩,
    ⟨_, rfl, funext fun i => funext fun j => (key i j).2⟩⟩

/-- so the track and the detection are fused with weight NaN -/
theorem stay_weight (u v : Fin 256) :
    fusionWeight diagonalEigen (stay (preciseObj u 10)) (stay (preciseObj v 11)) = some .nan := by
  obtain ⟨⟨o, h1, h2⟩, -⟩ := stay_cov u
  obtain ⟨-, ⟨o', h1', h2'⟩⟩ := stay_cov v
  rw [h1, h1']
  show some _ = _
  rw [h2, h2']
  exact congrArg some (C98_overflow C98_eigen (k := 25) (by norm_num) (by norm_num)
    (fun _ => by norm_num) (fun _ => by norm_num) (fun _ => by norm_num) (fun _ => by norm_num))

/-- the score of the predicted track and detection -/
theorem stay_scores :
    (pruneScoresIf (scoreTracksAndDetections [stay (preciseObj 1 10)] [stay (preciseObj 2 11)]
      (euclidMetric CtrvStateF.pose CtraStateF.pose)) fun s => FP.gt s (.fin 5)).entries =
        [(mkPair ⟨[1]⟩ ⟨[2]⟩, .fin 1)] := by
  decide +kernel

/-- a single score leads to a single association -/
theorem single_score {solve : Solver} (hs : IsPermSolver solve) {scores : ScoreMap} {u v : Uuid} {q : ℚ}
    (he : scores.entries = [(mkPair u v, .fin q)]) (h0 : 0 < q) (h1 : q ≤ fltMaxQ) :
    ∃ a, gnnAssociator solve scores = .ok a ∧ u ∈ a.keys ∧ ∀ x ∈ pairsOf a, x = (u, v) := by
  have hfind : ∀ k s, scores.find? k = some s ↔ k = mkPair u v ∧ s = .fin q := by
    intro k s
    rw [SMap.find?_eq_some, he, List.mem_singleton, Prod.mk.injEq]
  have hbig : scores.entries.length < 2 ^ 64 := by rw [he]; simp
  obtain ⟨a, ha⟩ := C23_returns_partial hs scores hbig
    (fun k s hk => by
      obtain ⟨-, rfl⟩ := (hfind k s).1 hk
      exact ⟨q, rfl, h0.le, h1⟩)
    (.inl ⟨_, q, (hfind _ _).2 ⟨rfl, rfl⟩, h0⟩)
  have hpair : ∀ x ∈ pairsOf a, x = (u, v) := by
    intro x hx
    obtain ⟨⟨d', h1⟩, ⟨t', h2⟩⟩ := (C19_one_to_one hs hbig ha).2.2.2 x hx
    obtain ⟨s, h1⟩ := Option.isSome_iff_exists.1 h1
    obtain ⟨s', h2⟩ := Option.isSome_iff_exists.1 h2
    have e1 := ((hfind _ _).1 h1).1
    have e2 := ((hfind _ _).1 h2).1
    exact Prod.ext (Prod.ext_iff.1 (toLex.injective e1)).1 (Prod.ext_iff.1 (toLex.injective e2)).2
  have hne : pairsOf a ≠ [] := by
    have hc := (C20_card hs hbig ha).1
    have hsc : Scored scores u v := Option.isSome_iff_exists.2 ⟨_, (hfind _ _).2 ⟨rfl, rfl⟩⟩
    have h1 : 0 < trackCount _ := Finset.card_pos.2 ⟨_, mem_trackNames.2 ⟨_, hsc⟩⟩
    have h2 : 0 < detectionCount _ := Finset.card_pos.2 ⟨_, mem_detectionNames.2 ⟨_, hsc⟩⟩
    intro h0
    rw [h0, List.length_nil] at hc
    omega
  obtain ⟨x, hx⟩ := List.exists_mem_of_ne_nil _ hne
  obtain rfl := hpair x hx
  obtain ⟨l, hl, hl2⟩ := mem_pairsOf_iff.1 hx
  exact ⟨a, ha, List.mem_map.2 ⟨_, SMap.find?_eq_some.1 hl, rfl⟩, hpair⟩

/-- the second period is undefined: the first fuses with weight NaN -/
theorem C101_happens {solve solve' : Solver} (hs : IsPermSolver solve) :
    let mgr := (addTentativeTrack (preciseObj 1 10) (Manager.new 3 0)).1
    let run := fun solve => period solve (euclidMetric CtrvStateF.pose CtraStateF.pose)
      (fun s => FP.gt s (.fin 5)) fuseSame makeTrack2 fun o => .ok (stay o)
    ∃ mgr' a, run solve [preciseObj 2 11] mgr = (mgr', .ok a) ∧
      (run solve' [preciseObj 3 12] mgr').2.IsUb := by
  intro mgr run
  have hr : ReachableIn _ _ 0 mgr :=
    reachable_step (⟨3, 0, [], [], .nil (Reordered.refl _), rfl⟩ :
      ReachableIn _ _ 0 (Manager.new 3 0 : Manager (FObj plainLibm))) (.add (preciseObj 1 10))
  have hm : mgr.getAllTracks = [preciseObj 1 10] := rfl
  have hal : ∀ o o' : FObj plainLibm, (.ok (stay o) : Outcome _) = .ok o' → PredictsF o o' := by
    rintro o _ ⟨⟩; exact stay_predicts o
  obtain ⟨a, ha, hu, -⟩ := single_score hs stay_scores (by norm_num) (by norm_num [fltMaxQ])
  have hst : ¬ Starts a [preciseObj 2 11] ⟨[1]⟩ := by
    rintro ⟨d, hd, hd', -⟩
    rw [List.mem_singleton] at hd
    subst hd
    exact absurd hd' (show (⟨[2]⟩ : Uuid) ≠ ⟨[1]⟩ by decide +kernel)
  obtain ⟨⟨o, ho, -⟩, -⟩ := stay_cov 1
  obtain ⟨-, ⟨o', ho', -⟩⟩ := stay_cov 2
  obtain ⟨f, hf⟩ : ∃ f, fuseSame (stay (preciseObj 1 10)) (stay (preciseObj 2 11)) = .ok f := by
    obtain ⟨f, hf⟩ := C98_exists (by norm_num) diagonalEigen o o'
    have : ∃ f, FusesF diagonalEigen (stay (preciseObj 1 10)) (stay (preciseObj 2 11)) f := by
      rw [ho, ho']; exact ⟨_, .ctrv hf⟩
    unfold fuseSame
    rw [dif_pos this]
    exact ⟨_, rfl⟩
  have hD : ([preciseObj 2 11].map TrackOps.uuid).Nodup := by simp
  have hfu : (fuseAssociations a [stay (preciseObj 1 10)] [stay (preciseObj 2 11)] fuseSame).IsOk := by
    by_contra hno
    have hno' : ∀ out, fuseAssociations a [stay (preciseObj 1 10)] [stay (preciseObj 2 11)] fuseSame ≠
        .ok out := fun out h => hno (by rw [h]; simp)
    obtain ⟨pre, p, post, hp, -, hbad⟩ := C29_failure _ _ _ _ hno'
    have hmem : p ∈ associatedPairs a [stay (preciseObj 1 10)] [stay (preciseObj 2 11)] := by
      rw [hp]; simp
    rw [associatedPairs_eq] at hmem
    simp only [List.mem_flatMap, List.mem_map, List.mem_filter, List.mem_singleton] at hmem
    obtain ⟨-, -, t, ⟨rfl, -⟩, d, ⟨rfl, -⟩, rfl⟩ := hmem
    rcases hbad with ⟨e, h, -⟩ | ⟨w, h, -⟩ <;> · rw [hf] at h; cases h
  have hok := (C100_completes_iff hr (by norm_num) hs (euclidMetric CtrvStateF.pose CtraStateF.pose)
    (fun s => FP.gt s (.fin 5)) (fun t d f hf => (fuseSame_fuses t d f hf).same)
    (fun o o' ho => (hal o o' ho).same) hD (by rw [hm]; simp) a).2
    ⟨[stay (preciseObj 2 11)], [stay (preciseObj 1 10)], .cons rfl .nil, .cons rfl .nil, ha, hfu, by
      rintro d hd - ⟨t, ht, hu⟩
      rw [hm, List.mem_singleton] at ht
      rw [List.mem_singleton] at hd
      subst ht hd
      exact absurd hu (show (⟨[1]⟩ : Uuid) ≠ ⟨[2]⟩ by decide +kernel)⟩
  have hp : run solve [preciseObj 2 11] mgr = ((run solve [preciseObj 2 11] mgr).1, .ok a) :=
    Prod.ext rfl hok
  refine ⟨_, a, hp, ?_⟩
  obtain ⟨-, -, hin, -⟩ := C100_period hr (by norm_num) hs
    (fun t d f hf => (fuseSame_fuses t d f hf).same) (fun o o' ho => (hal o o' ho).same) hD
    (by rw [hm]; simp) hp
  obtain ⟨t, x, d, hd, y, f', ht, hx, hy, -, hvf, hiff⟩ := hin _ hu hst
  have ht' := (hiff f').2 ⟨rfl, show 0 < min _ 3 by omega⟩
  have hkind : f'.isLeft = true := by
    rw [(fuseSame_fuses _ _ _ hvf).same.model, (hal _ _ hx).same.model]
    have := ht.1
    rw [hm, List.mem_singleton] at this
    subst this
    rfl
  refine (C101_next_period hr (by norm_num) hs fuseSame_fuses hal hD (by rw [hm]; simp) hp hu hst
    (fun t d x y ht hd _ hx hy => ?_) ht').2 C101_euclid (C101_gate _) hal (by simp)
    (fun o _ => ⟨_, rfl⟩) ⟨preciseObj 3 12, by simp, hkind.symm⟩
  have := ht.1
  rw [hm, List.mem_singleton] at this
  rw [List.mem_singleton] at hd
  subst this hd
  cases hx
  cases hy
  exact .inr (.inr (stay_weight 1 2))

/-- a CTRV detection without a speed -/
noncomputable def faultyObj (u : Fin 256) : FObj plainLibm :=
  .inl ⟨0, ⟨.fin 11, .fin 20, .nan, (.fin 1 : FP), .fin 0⟩, diagonalF fun _ => .fin 1, ⟨[u]⟩, .unknown⟩

/-- one number of a detection is NaN: undefined, whatever the solver and the fusion -/
example (solve : Solver) (visitor : FObj plainLibm → FObj plainLibm → Outcome (FObj plainLibm))
    (make : FObj plainLibm → FObj plainLibm) :
    (period solve (euclidMetric CtrvStateF.pose CtraStateF.pose) (fun s => FP.gt s (.fin 5)) visitor make
      (fun o => .ok (stay o)) [faultyObj 2]
      (addTentativeTrack (preciseObj 1 10) (Manager.new 3 0)).1).2.IsUb := by
  have hr := reachable_step (⟨3, 0, [], [], .nil (Reordered.refl _), rfl⟩ :
      ReachableIn _ _ 0 (Manager.new 3 0 : Manager (FObj plainLibm))) (.add (preciseObj 1 10))
  have hal : ∀ o o' : FObj plainLibm, (.ok (stay o) : Outcome _) = .ok o' → PredictsF o o' := by
    rintro o _ ⟨⟩; exact stay_predicts o
  have hD : ([faultyObj 2].map TrackOps.uuid).Nodup := by simp
  have hn : FP.nan ∈ numbers (faultyObj 2) := by simp [faultyObj, numbers]
  exact (C101_period_ub hr (by simp [Op.updates]) solve C101_euclid
    (gate := fun s => FP.gt s (.fin 5)) (C101_gate _) visitor make hal hD
    (fun o _ => ⟨_, rfl⟩) (show preciseObj 1 10 ∈ [preciseObj 1 10] from List.mem_singleton.2 rfl)
    (List.mem_singleton.2 rfl) rfl (.inr hn)).1

/-- a CTRA object -/
noncomputable def preciseCtra (u : Fin 256) (x : ℚ) : FObj plainLibm :=
  .inr ⟨0, ⟨.fin x, .fin 20, .fin 2, (.fin 1 : FP), .fin (1 / 2), .fin 0⟩,
    diagonalF fun _ => .fin (1 / 2 ^ 26), ⟨[u]⟩, .unknown⟩

/-- the score of two tracks, one of them with a NaN, and a CTRA detection -/
theorem stay_scores_ctra :
    (pruneScoresIf (scoreTracksAndDetections [stay (preciseCtra 2 10), stay (faultyObj 1)]
      [stay (preciseCtra 3 11)]
      (euclidMetric CtrvStateF.pose CtraStateF.pose)) fun s => FP.gt s (.fin 5)).entries =
        [(mkPair ⟨[2]⟩ ⟨[3]⟩, .fin 1)] := by
  decide +kernel

/-- a period with a detection of the other kind only: it completes, and the track with the NaN, which
had been seen once, is removed -/
example {solve : Solver} (hs : IsPermSolver solve) :
    let mgr := (addTentativeTrack (preciseCtra 2 10)
      (addTentativeTrack (faultyObj 1) (Manager.new 3 0)).1).1
    ∃ mgr' a, period solve (euclidMetric CtrvStateF.pose CtraStateF.pose)
      (fun s => FP.gt s (.fin 5)) fuseSame makeTrack2 (fun o => .ok (stay o)) [preciseCtra 3 11] mgr =
        (mgr', .ok a) ∧ ∀ t', ¬ mgr'.HasTrack ⟨[1]⟩ t' := by
  intro mgr
  have hr : ReachableIn _ _ 0 mgr :=
    reachable_step (reachable_step (⟨3, 0, [], [], .nil (Reordered.refl _), rfl⟩ :
      ReachableIn _ _ 0 (Manager.new 3 0 : Manager (FObj plainLibm))) (.add (faultyObj 1)))
      (.add (preciseCtra 2 10))
  have hm : mgr.getAllTracks = [preciseCtra 2 10, faultyObj 1] := rfl
  have hal : ∀ o o' : FObj plainLibm, (.ok (stay o) : Outcome _) = .ok o' → PredictsF o o' := by
    rintro o _ ⟨⟩; exact stay_predicts o
  obtain ⟨a, ha, -, hpair⟩ := single_score hs stay_scores_ctra (by norm_num) (by norm_num [fltMaxQ])
  obtain ⟨f, hf⟩ : ∃ f, fuseSame (stay (preciseCtra 2 10)) (stay (preciseCtra 3 11)) = .ok f := by
    have : ∃ f, FusesF diagonalEigen (stay (preciseCtra 2 10)) (stay (preciseCtra 3 11)) f := by
      obtain ⟨f, hf⟩ := C98_exists (S := CtraStateF plainLibm) (by norm_num) diagonalEigen _ _
      exact ⟨_, .ctra hf⟩
    unfold fuseSame
    rw [dif_pos this]
    exact ⟨_, rfl⟩
  have hD : ([preciseCtra 3 11].map TrackOps.uuid).Nodup := by simp
  have hfu : (fuseAssociations a [stay (preciseCtra 2 10), stay (faultyObj 1)] [stay (preciseCtra 3 11)]
      fuseSame).IsOk := by
    by_contra hno
    have hno' : ∀ out, fuseAssociations a [stay (preciseCtra 2 10), stay (faultyObj 1)]
        [stay (preciseCtra 3 11)] fuseSame ≠ .ok out := fun out h => hno (by rw [h]; simp)
    obtain ⟨pre, p, post, hp, -, hbad⟩ := C29_failure _ _ _ _ hno'
    have hmem : p ∈ associatedPairs a [stay (preciseCtra 2 10), stay (faultyObj 1)]
        [stay (preciseCtra 3 11)] := by
      rw [hp]; simp
    rw [associatedPairs_eq] at hmem
    simp only [List.mem_flatMap, List.mem_map, List.mem_filter, decide_eq_true_eq, List.mem_cons,
      List.not_mem_nil, or_false] at hmem
    obtain ⟨e, he, t, ⟨ht, hu⟩, d, ⟨rfl, hu'⟩, rfl⟩ := hmem
    have := hpair (e.1, TrackOps.uuid (stay (preciseCtra 3 11)))
      (mem_pairsOf_iff.2 ⟨e.2, SMap.find?_eq_some.2 he, hu'⟩)
    have h1 : e.1 = ⟨[2]⟩ := (Prod.ext_iff.1 this).1
    rcases ht with rfl | rfl
    · rcases hbad with ⟨e, h, -⟩ | ⟨w, h, -⟩ <;> · rw [hf] at h; cases h
    · rw [h1] at hu
      exact absurd hu (show (⟨[1]⟩ : Uuid) ≠ ⟨[2]⟩ by decide +kernel)
  have hok := (C100_completes_iff hr (by norm_num) hs (euclidMetric CtrvStateF.pose CtraStateF.pose)
    (fun s => FP.gt s (.fin 5)) (fun t d f hf => (fuseSame_fuses t d f hf).same)
    (fun o o' ho => (hal o o' ho).same) hD (by rw [hm]; simp) a).2
    ⟨[stay (preciseCtra 3 11)], [stay (preciseCtra 2 10), stay (faultyObj 1)], .cons rfl .nil,
      .cons rfl (.cons rfl .nil), ha, hfu, by
      rintro d hd - ⟨t, ht, hu⟩
      rw [hm] at ht
      simp only [List.mem_cons, List.not_mem_nil, or_false] at ht hd
      subst hd
      rcases ht with rfl | rfl
      · exact absurd hu (show (⟨[2]⟩ : Uuid) ≠ ⟨[3]⟩ by decide +kernel)
      · exact absurd hu (show (⟨[1]⟩ : Uuid) ≠ ⟨[3]⟩ by decide +kernel)⟩
  obtain ⟨mgr', hp⟩ : ∃ mgr', period solve (euclidMetric CtrvStateF.pose CtraStateF.pose)
      (fun s => FP.gt s (.fin 5)) fuseSame makeTrack2 (fun o => .ok (stay o)) [preciseCtra 3 11] mgr =
        (mgr', .ok a) := ⟨_, Prod.ext rfl hok⟩
  refine ⟨mgr', a, hp, fun t' ht' => ?_⟩
  have hst : ¬ Starts a [preciseCtra 3 11] ⟨[1]⟩ := by
    rintro ⟨d, hd, hd', -⟩
    rw [List.mem_singleton] at hd
    subst hd
    exact absurd hd' (show (⟨[3]⟩ : Uuid) ≠ ⟨[1]⟩ by decide +kernel)
  have ht : mgr.HasTrack ⟨[1]⟩ (faultyObj 1) :=
    ⟨show faultyObj 1 ∈ [preciseCtra 2 10, faultyObj 1] by simp, rfl⟩
  have := ((C101_completed hr (by norm_num) hs C101_euclid
    (gate := fun s => FP.gt s (.fin 5)) (C101_gate _) fuseSame_fuses hal hD
    (by rw [hm]; simp) hp ht (by simp [faultyObj, numbers])).2 hst).2 t' |>.1 ht'
  exact absurd this.2 (show ¬ 0 < 1 - 1 by norm_num)

end Mot.Props
