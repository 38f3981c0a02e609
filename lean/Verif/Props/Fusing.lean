import Verif.Proofs.Fusing
import Verif.Proofs.Maps
import Verif.Spec.Fusing
import Mathlib.Data.Matrix.ColumnRowPartitioned
/-!
# Properties of fusing (C29 – C35), in exact real arithmetic
-/

namespace Mot.Props

open Mot Matrix Spec

/-! ## C29 -/

section C29
variable {τ δ S C S' C' : Type} [TrackOps τ S C] [TrackOps δ S' C']

theorem associatedPairs_eq (a : AssociationMap) (ts : List τ) (ds : List δ) :
    associatedPairs a ts ds = a.entries.flatMap fun e =>
      (ts.filter fun t => TrackOps.uuid t = e.1).flatMap fun t =>
        (ds.filter fun d => TrackOps.uuid d ∈ e.2).map fun d => (t, d) := by
  unfold associatedPairs
  simp only [List.bind_eq_flatMap, List.pure_def, List.map_eq_flatMap]

theorem fuseAssociations_eq (a : AssociationMap) (ts : List τ) (ds : List δ)
    (f : τ → δ → Outcome τ) :
    fuseAssociations a ts ds f = fuseList f (associatedPairs a ts ds) [] := by
  rw [associatedPairs_eq]
  exact fuseLoop_eq f ts ds a.entries []

/-- C29: the result consists of one fused object per associated pair, in order. -/
theorem C29_exactly_the_pairs (a : AssociationMap) (ts : List τ) (ds : List δ)
    (f : τ → δ → Outcome τ) (out : List τ) :
    fuseAssociations a ts ds f = .ok out ↔
      List.Forall₂ (fun p x => f p.1 p.2 = .ok x) (associatedPairs a ts ds) out := by
  rw [fuseAssociations_eq, fuseList_ok]
  simp

/-- C29: otherwise the first failing pair decides. -/
theorem C29_failure (a : AssociationMap) (ts : List τ) (ds : List δ)
    (f : τ → δ → Outcome τ) (h : ∀ out, fuseAssociations a ts ds f ≠ .ok out) :
    ∃ pre p post, associatedPairs a ts ds = pre ++ p :: post ∧
      (∀ q ∈ pre, ∃ x, f q.1 q.2 = .ok x) ∧
      ((∃ e, f p.1 p.2 = .throw e ∧ fuseAssociations a ts ds f = .throw e) ∨
        ∃ w, f p.1 p.2 = .ub w ∧ fuseAssociations a ts ds f = .ub w) :=
  fuseList_fail f _ [] _ (fuseAssociations_eq a ts ds f).symm h

/-- C29: an object is in the result exactly if it is the fusion of a present track and a
present detection that are associated. -/
theorem C29_mem (a : AssociationMap) (ts : List τ) (ds : List δ) (f : τ → δ → Outcome τ)
    (out : List τ) (h : fuseAssociations a ts ds f = .ok out) (x : τ) :
    x ∈ out ↔ ∃ t ∈ ts, ∃ d ∈ ds, ∃ us, a.find? (TrackOps.uuid t) = some us ∧
      TrackOps.uuid d ∈ us ∧ f t d = .ok x := by
  rw [C29_exactly_the_pairs] at h
  have hp : ∀ t d, (t, d) ∈ associatedPairs a ts ds ↔ t ∈ ts ∧ d ∈ ds ∧
      ∃ us, a.find? (TrackOps.uuid t) = some us ∧ TrackOps.uuid d ∈ us := by
    intro t d
    rw [associatedPairs_eq]
    simp only [List.mem_flatMap, List.mem_map, List.mem_filter, decide_eq_true_eq, Prod.mk.injEq]
    constructor
    · rintro ⟨⟨u, us⟩, he, t', ⟨ht, hu⟩, d', ⟨hd, hu'⟩, rfl, rfl⟩
      simp only at hu hu'
      exact ⟨ht, hd, us, SMap.find?_eq_some.2 (hu ▸ he), hu'⟩
    · rintro ⟨ht, hd, us, he, hu⟩
      exact ⟨(_, us), SMap.find?_eq_some.1 he, t, ⟨ht, rfl⟩, d, ⟨hd, hu⟩, rfl, rfl⟩
  have key : ∀ (l : List (τ × δ)) (out : List τ),
      List.Forall₂ (fun p x => f p.1 p.2 = .ok x) l out →
      (x ∈ out ↔ ∃ p ∈ l, f p.1 p.2 = .ok x) := by
    intro l out h
    induction h with
    | nil => simp
    | @cons p y l out h1 h2 ih =>
      simp only [List.mem_cons, ih, exists_eq_or_imp, h1, Outcome.ok.injEq]
      constructor
      · rintro (rfl | h)
        · exact .inl rfl
        · exact .inr h
      · rintro (rfl | h)
        · exact .inl rfl
        · exact .inr h
  rw [key _ _ h]
  constructor
  · rintro ⟨⟨t, d⟩, hm, hx⟩
    obtain ⟨h1, h2, us, h3, h4⟩ := (hp t d).1 hm
    exact ⟨t, h1, d, h2, us, h3, h4, hx⟩
  · rintro ⟨t, h1, d, h2, us, h3, h4, hx⟩
    exact ⟨(t, d), (hp t d).2 ⟨h1, h2, us, h3, h4⟩, hx⟩

open Classical in
/-- C29: distinct UUIDs and associations with a single detection: exactly one fused track,
with the UUID of the track, per association whose track and detection are present. -/
theorem C29_one_per_association (a : AssociationMap) (ts : List τ) (ds : List δ)
    (f : τ → δ → Outcome τ)
    (hf : ∀ t d, t ∈ ts → d ∈ ds → ∀ x, f t d = .ok x → TrackOps.uuid x = TrackOps.uuid t)
    (hts : (ts.map TrackOps.uuid).Nodup) (hds : (ds.map TrackOps.uuid).Nodup)
    (ha : ∀ e ∈ a.entries, ∃ u, e.2 = [u]) (out : List τ)
    (h : fuseAssociations a ts ds f = .ok out) :
    out.map TrackOps.uuid = (a.entries.filter fun e => Present ts ds e).map (·.1) := by
  rw [C29_exactly_the_pairs] at h
  have h1 : out.map TrackOps.uuid = (associatedPairs a ts ds).map fun p => TrackOps.uuid p.1 := by
    have hmem : ∀ p ∈ associatedPairs a ts ds, p.1 ∈ ts ∧ p.2 ∈ ds := by
      intro p
      rw [associatedPairs_eq]
      simp only [List.mem_flatMap, List.mem_map, List.mem_filter]
      rintro ⟨_, _, t, ⟨ht, _⟩, d, ⟨hd, _⟩, rfl⟩
      exact ⟨ht, hd⟩
    generalize associatedPairs a ts ds = l at h hmem
    induction h with
    | nil => rfl
    | @cons p x l out hp _ ih =>
      rw [List.map_cons, List.map_cons, ih fun q hq => hmem q (List.mem_cons_of_mem _ hq),
        hf p.1 p.2 (hmem p (by simp)).1 (hmem p (by simp)).2 x hp]
  rw [h1, associatedPairs_eq]
  generalize a.entries = l at ha
  induction l with
  | nil => rfl
  | cons e l ih =>
    obtain ⟨u, us⟩ := e
    rw [List.flatMap_cons, List.map_append, ih fun e he => ha e (List.mem_cons_of_mem _ he)]
    obtain ⟨v, hv⟩ := ha (u, us) (by simp)
    simp only at hv
    subst hv
    simp only [List.mem_singleton]
    rcases filter_unique TrackOps.uuid ts hts u with ⟨e1, n1⟩ | ⟨t, ht, hu, e1⟩
    · rw [List.filter_cons_of_neg (by simp [Present, n1]), e1]
      simp
    · rcases filter_unique TrackOps.uuid ds hds v with ⟨e2, n2⟩ | ⟨d, hd, hv, e2⟩
      · rw [List.filter_cons_of_neg (by simp [Present, n2]), e1, e2]
        simp
      · have hp : Present ts ds (u, [v]) := ⟨⟨t, ht, hu⟩, d, hd, by simp [hv]⟩
        rw [List.filter_cons_of_pos (by simpa using hp), e1, e2]
        simp [hu]

end C29

/-! ## C30 -/

/-- C30: a fused track is the track with new time, state and covariance, of the track's
motion model; the time is that of the detection. -/
theorem C30_identity_and_time (t d f : MotObj) (h : ciVisitor t d = .ok f) :
    TrackOps.uuid f = TrackOps.uuid t ∧ TrackOps.semanticClass f = TrackOps.semanticClass t ∧
    TrackOps.timestamp f = TrackOps.timestamp d ∧ f.isLeft = t.isLeft ∧ f.isLeft = d.isLeft := by
  have key : ∀ {S : Type} {n : ℕ} [MotionModel S n] (t d f : DynObj S (Matrix (Fin n) (Fin n) ℝ)),
      fusePair t d = .ok f → f.uuid = t.uuid ∧ f.semanticClass = t.semanticClass ∧
        f.timestamp = d.timestamp := by
    intro S n _ t d f h
    unfold fusePair at h
    split at h
    · split at h
      · cases h
      · split at h
        · cases h
        · cases h; exact ⟨rfl, rfl, rfl⟩
    · cases h
  match t, d with
  | .inl t, .inl d =>
    rcases hp : fusePair t d with g | e | w
    · simp only [ciVisitor, hp] at h
      cases h
      exact ⟨(key t d g hp).1, (key t d g hp).2.1, (key t d g hp).2.2, rfl, rfl⟩
    · simp only [ciVisitor, hp] at h; cases h
    · simp only [ciVisitor, hp] at h; cases h
  | .inr t, .inr d =>
    rcases hp : fusePair t d with g | e | w
    · simp only [ciVisitor, hp] at h
      cases h
      exact ⟨(key t d g hp).1, (key t d g hp).2.1, (key t d g hp).2.2, rfl, rfl⟩
    · simp only [ciVisitor, hp] at h; cases h
    · simp only [ciVisitor, hp] at h; cases h
  | .inl _, .inr _ => cases h
  | .inr _, .inl _ => cases h

/-- C30: the motion models of the two objects must agree. -/
theorem C30_models_must_agree (t : DynObj CtrvState CtrvCov) (d : DynObj CtraState CtraCov) :
    ciVisitor (.inl t) (.inr d) = .ub .sizeMismatch ∧
    ciVisitor (.inr d) (.inl t) = .ub .sizeMismatch := ⟨rfl, rfl⟩

/-- C30: fusing objects with the same motion model and positive definite covariances always
succeeds. -/
theorem C30_total (t d : MotObj) (hm : match t, d with
      | .inl t, .inl d => t.covariance.PosDef ∧ d.covariance.PosDef
      | .inr t, .inr d => t.covariance.PosDef ∧ d.covariance.PosDef
      | _, _ => False) : ∃ f, ciVisitor t d = .ok f := by
  match t, d with
  | .inl t, .inl d =>
    simp only at hm
    exact ⟨_, by simp only [ciVisitor, fusePair_posDef t d hm.1 hm.2]; rfl⟩
  | .inr t, .inr d =>
    simp only at hm
    exact ⟨_, by simp only [ciVisitor, fusePair_posDef t d hm.1 hm.2]; rfl⟩
  | .inl _, .inr _ => exact hm.elim
  | .inr _, .inl _ => exact hm.elim

/-- a track and a detection, used in examples -/
noncomputable def sampleObj (u : Uuid) (x yaw : ℝ) (P : CtrvCov) : DynObj CtrvState CtrvCov :=
  ⟨7, ⟨x, 2, 3, Angle.ofRad yaw, 1⟩, P, u, .unknown⟩

theorem posDef_two : (2 : CtrvCov).PosDef := by
  have : (2 : CtrvCov) = (2 : ℝ) • 1 := by rw [two_smul, one_add_one_eq_two]
  rw [this]
  exact PosDef.one.smul (by norm_num)

/-- C29 and C30 apply to a map with a present and a missing detection. -/
example : ∃ out : List MotObj,
    fuseAssociations (τ := MotObj) (δ := MotObj) ((SMap.empty.set ⟨[1]⟩ [⟨[2]⟩]).set ⟨[3]⟩ [⟨[4]⟩])
      [.inl (sampleObj ⟨[1]⟩ 0 1 1), .inl (sampleObj ⟨[3]⟩ 0 1 1), .inl (sampleObj ⟨[5]⟩ 0 1 1)]
      [.inl (sampleObj ⟨[2]⟩ 1 1 2)] ciVisitor = .ok out ∧ out.map TrackOps.uuid = [⟨[1]⟩] := by
  obtain ⟨f, hf⟩ := C30_total (.inl (sampleObj ⟨[1]⟩ 0 1 1)) (.inl (sampleObj ⟨[2]⟩ 1 1 2))
    ⟨PosDef.one, posDef_two⟩
  refine ⟨[f], ?_, ?_⟩
  · rw [C29_exactly_the_pairs]
    have : associatedPairs (τ := MotObj) (δ := MotObj) ((SMap.empty.set ⟨[1]⟩ [⟨[2]⟩]).set ⟨[3]⟩ [⟨[4]⟩])
      [.inl (sampleObj ⟨[1]⟩ 0 1 1), .inl (sampleObj ⟨[3]⟩ 0 1 1), .inl (sampleObj ⟨[5]⟩ 0 1 1)]
      [.inl (sampleObj ⟨[2]⟩ 1 1 2)] = [(.inl (sampleObj ⟨[1]⟩ 0 1 1), .inl (sampleObj ⟨[2]⟩ 1 1 2))] := rfl
    rw [this]
    exact .cons hf .nil
  · simp only [List.map_cons, List.map_nil, (C30_identity_and_time _ _ _ hf).1]
    rfl

/-! ## C31 -/

/-- C31: the weight lies strictly between 0 and 1; swapping the arguments gives the
complement; the more certain estimate (larger determinant of the inverse covariance) gets
the larger weight. -/
theorem C31_weight {n : ℕ} [NeZero n] {A B : Matrix (Fin n) (Fin n) ℝ} (hA : A.PosDef)
    (hB : B.PosDef) : ∃ w w', generateWeight A B = some w ∧ generateWeight B A = some w' ∧
      0 < w ∧ w < 1 ∧ w + w' = 1 ∧ (1 / 2 < w ↔ B.det < A.det) := by
  obtain ⟨w, h1, h2, h3, h4⟩ := generateWeight_posDef hA hB
  obtain ⟨w', h1', h2', h3', h4'⟩ := generateWeight_posDef hB hA
  have hd : 0 < (A + B).det := (hA.add hB).det_pos
  refine ⟨w, w', h1, h1', h2, h3, ?_, ?_⟩
  · rw [h4, h4', add_comm B A, ← add_div, div_eq_one_iff_eq (by linarith)]
    ring
  · rw [h4, lt_div_iff₀ (by linarith)]
    constructor <;> intro h <;> linarith

example : generateWeight (2 : CtrvCov) 1 = some (137 / 243) := by
  have h2 : (2 : CtrvCov).det = 32 := by
    have : (2 : CtrvCov) = (2 : ℝ) • 1 := by rw [two_smul, one_add_one_eq_two]
    rw [this, det_smul, det_one]; norm_num
  have h3 : (2 + 1 : CtrvCov).det = 243 := by
    have : (2 + 1 : CtrvCov) = (3 : ℝ) • 1 := by
      rw [show (3 : ℝ) = 1 + 1 + 1 by norm_num, add_smul, add_smul, one_smul, one_add_one_eq_two]
    rw [this, det_smul, det_one]; norm_num
  simp only [generateWeight, h2, h3, det_one]
  norm_num

/-! ## C32 -/

section
set_option linter.unusedSectionVars false
variable {S : Type} {n : ℕ} [NeZero n] [MotionModel S n]

/-- C32: the fused covariance is positive definite and its inverse is the weighted average
of the inverses of the covariances. -/
theorem C32_valid_covariance (t d : DynObj S (Matrix (Fin n) (Fin n) ℝ))
    (ht : t.covariance.PosDef) (hd : d.covariance.PosDef) :
    ∃ f w, fusePair t d = .ok f ∧ 0 < w ∧ w < 1 ∧
      generateWeight t.covariance⁻¹ d.covariance⁻¹ = some w ∧ f.covariance.PosDef ∧
      f.covariance⁻¹ = w • t.covariance⁻¹ + (1 - w) • d.covariance⁻¹ := by
  obtain ⟨h1, h2, h3⟩ := fuseWeight_spec ht hd
  have hI := fuseInfo_posDef ht hd
  refine ⟨_, _, fusePair_posDef t d ht hd, h2, h3, h1, hI.inv, ?_⟩
  exact nonsing_inv_nonsing_inv _ (PosDef.isUnit_det hI)

/-! ## C33 -/

/-- C33: for every weight the result of covariance intersection is a combination of the two
(rotated) means whose error covariance is bounded by the result's covariance, whatever the
correlation of the two errors. -/
theorem C33_consistent {P Q : Matrix (Fin n) (Fin n) ℝ} (hP : P.PosDef) (hQ : Q.PosDef) {w : ℝ}
    (h0 : 0 < w) (h1 : w < 1) : ∃ K L C : Matrix (Fin n) (Fin n) ℝ, K + L = 1 ∧
      (∀ m₁ m₂ : Fin n → ℝ, (∀ i : Fin n, i.1 = 3 → m₁ i ≤ yawCut ∧ m₂ i ≤ yawCut) →
        covIntersection m₁ P⁻¹ m₂ Q⁻¹ w = some (K *ᵥ m₁ + L *ᵥ m₂, C)) ∧
      ∀ S₁ X S₂, IsJointCov S₁ X S₂ → CovLE S₁ P → CovLE S₂ Q → CovLE (covOfSum K L S₁ X S₂) C := by
  have hA := combined_posDef hP.inv hQ.inv h0 h1
  refine ⟨_, _, _, ?_, ?_, fun S₁ X S₂ hS h₁ h₂ => consistency hP hQ h0 h1 hS h₁ h₂ rfl rfl rfl⟩
  · rw [← mul_add, nonsing_inv_mul _ (PosDef.isUnit_det hA)]
  · intro m₁ m₂ hm
    rw [covIntersection_posDef hP.inv hQ.inv h0 h1, rotateYaw_of_le fun i hi => (hm i hi).1,
      rotateYaw_of_le fun i hi => (hm i hi).2]
    simp only [mulVec_add, ← mulVec_mulVec, smul_mulVec, mulVec_smul]

/-- C33: the same for fused objects. -/
theorem C33_fused_objects (t d : DynObj S (Matrix (Fin n) (Fin n) ℝ))
    (ht : t.covariance.PosDef) (hd : d.covariance.PosDef) :
    ∃ f, fusePair t d = .ok f ∧ ∃ K L : Matrix (Fin n) (Fin n) ℝ, K + L = 1 ∧
      f.state = MotionModel.ofVec (K *ᵥ rotateYaw (MotionModel.toVec t.state) +
        L *ᵥ rotateYaw (MotionModel.toVec d.state)) ∧
      ∀ S₁ X S₂, IsJointCov S₁ X S₂ → CovLE S₁ t.covariance → CovLE S₂ d.covariance →
        CovLE (covOfSum K L S₁ X S₂) f.covariance := by
  obtain ⟨h1, h2, h3⟩ := fuseWeight_spec ht hd
  have hA := combined_posDef ht.inv hd.inv h2 h3
  refine ⟨_, fusePair_posDef t d ht hd, _, _, ?_, ?_,
    fun S₁ X S₂ hS h₁ h₂ => consistency ht hd h2 h3 hS h₁ h₂ rfl rfl rfl⟩
  · rw [← mul_add]
    exact nonsing_inv_mul _ (PosDef.isUnit_det hA)
  · simp only [mulVec_add, ← mulVec_mulVec, smul_mulVec, mulVec_smul, fuseInfo]

end

/-- Fully correlated errors (the two estimates share all of their information) are a joint
covariance; C33 covers this case. -/
example : IsJointCov (1 : CtrvCov) 1 1 ∧ CovLE (1 : CtrvCov) 1 ∧ CovLE (1 : CtrvCov) 2 := by
  refine ⟨?_, ?_, ?_⟩
  · have : fromBlocks (1 : CtrvCov) (1 : CtrvCov) (1 : CtrvCov)ᵀ (1 : CtrvCov) = 
      (fromCols (1 : CtrvCov) (1 : CtrvCov))ᵀ * fromCols (1 : CtrvCov) (1 : CtrvCov) := by
      rw [transpose_fromCols, fromRows_mul_fromCols]; simp
    unfold IsJointCov
    rw [this, ← conjTranspose_eq_transpose_of_trivial]
    exact posSemidef_conjTranspose_mul_self _
  · unfold CovLE; rw [sub_self]; exact PosSemidef.zero
  · unfold CovLE
    rw [show (2 : CtrvCov) - 1 = 1 by rw [← one_add_one_eq_two]; abel]
    exact PosSemidef.one

/-! ## C34 -/

section
variable {S : Type} {n : ℕ} [NeZero n] [MotionModel S n]

/-- C34: swapping the estimates gives the same state and covariance. -/
theorem C34_symmetric (t d : DynObj S (Matrix (Fin n) (Fin n) ℝ))
    (ht : t.covariance.PosDef) (hd : d.covariance.PosDef) :
    ∃ f g, fusePair t d = .ok f ∧ fusePair d t = .ok g ∧ f.state = g.state ∧
      f.covariance = g.covariance := by
  refine ⟨_, _, fusePair_posDef t d ht hd, fusePair_posDef d t hd ht, ?_, ?_⟩
  · simp only
    rw [fuseInfo_swap ht hd, fuseWeight_swap ht hd, sub_sub_cancel, add_comm]
  · simp only
    rw [fuseInfo_swap ht hd]

theorem fusePair_same (t d : DynObj S (Matrix (Fin n) (Fin n) ℝ))
    (ht : t.covariance.PosDef) (hc : d.covariance = t.covariance) :
    fusePair t d = .ok { t with
      timestamp := d.timestamp
      state := MotionModel.ofVec ((1 / 2 : ℝ) • (rotateYaw (MotionModel.toVec t.state) +
        rotateYaw (MotionModel.toVec d.state))) } := by
  rw [fusePair_posDef t d ht (hc ▸ ht), hc, fused_mean_self ht, fuseInfo_self ht,
    nonsing_inv_nonsing_inv _ (PosDef.isUnit_det ht)]

end

/-- the fused heading of two equal headings -/
theorem heading_same {a : Angle} (ha : a.Valid) :
    (a.getAngle ≤ yawCut → Angle.ofRad (rotateHeading a.getAngle) = a) ∧
    (yawCut < a.getAngle → (Angle.ofRad (rotateHeading a.getAngle)).getAngle =
      a.getAngle - 2 * (yawCut - Real.pi)) := by
  have hr := Angle.getAngle_range a
  constructor
  · intro h
    unfold rotateHeading
    rw [if_neg (not_lt.2 h), Angle.ofRad_getAngle ha]
  · intro h
    have := heading_high (s := 1 / 2) hr hr (by norm_num) (by norm_num) h h
    rw [show 1 / 2 * rotateHeading a.getAngle + (1 - 1 / 2) * rotateHeading a.getAngle =
      rotateHeading a.getAngle by ring] at this
    rw [this]
    ring

theorem half_add_self {n : ℕ} (v : Fin n → ℝ) : (1 / 2 : ℝ) • (v + v) = v := by
  rw [← two_smul ℝ v, smul_smul]; norm_num

/-- C34 (CTRV): fusing an estimate with an equal estimate keeps the covariance and all
variables but the heading; the heading is kept too if it is at most 3.14159265359, and is
off by less than 2·10⁻¹² otherwise. -/
theorem C34_idempotent_ctrv (t d : DynObj CtrvState CtrvCov) (ht : t.covariance.PosDef)
    (hv : t.state.yaw.Valid) (hs : d.state = t.state) (hc : d.covariance = t.covariance) :
    ∃ f, fusePair t d = .ok f ∧ f.covariance = t.covariance ∧
      f.state = { t.state with yaw := f.state.yaw } ∧
      (t.state.yaw.getAngle ≤ yawCut → f.state.yaw = t.state.yaw) ∧
      |f.state.yaw.getAngle - t.state.yaw.getAngle| < 2 / 10 ^ 12 := by
  have hf := fusePair_same t d ht hc
  rw [hs, half_add_self] at hf
  obtain ⟨e1, e2⟩ := heading_same hv
  have hy : Angle.ofRad (rotateYaw t.state.toVec 3) = Angle.ofRad (rotateHeading t.state.yaw.getAngle) :=
    congrArg _ (rotateYaw_heading _ _ rfl)
  refine ⟨_, hf, rfl, ?_, fun h => hy.trans (e1 h), ?_⟩
  · show CtrvState.ofVec (rotateYaw t.state.toVec) = _
    unfold CtrvState.ofVec
    congr 1
  · show |(Angle.ofRad (rotateYaw t.state.toVec 3)).getAngle - _| < _
    rw [hy]
    rcases le_or_gt t.state.yaw.getAngle yawCut with h | h
    · rw [e1 h, sub_self, abs_zero]; norm_num
    · obtain ⟨c1, c2⟩ := yawCut_bounds
      rw [e2 h, sub_sub_cancel_left, abs_neg, abs_of_pos (by linarith)]
      linarith

/-- C34 (CTRA) -/
theorem C34_idempotent_ctra (t d : DynObj CtraState CtraCov) (ht : t.covariance.PosDef)
    (hv : t.state.yaw.Valid) (hs : d.state = t.state) (hc : d.covariance = t.covariance) :
    ∃ f, fusePair t d = .ok f ∧ f.covariance = t.covariance ∧
      f.state = { t.state with yaw := f.state.yaw } ∧
      (t.state.yaw.getAngle ≤ yawCut → f.state.yaw = t.state.yaw) ∧
      |f.state.yaw.getAngle - t.state.yaw.getAngle| < 2 / 10 ^ 12 := by
  have hf := fusePair_same t d ht hc
  rw [hs, half_add_self] at hf
  obtain ⟨e1, e2⟩ := heading_same hv
  have hy : Angle.ofRad (rotateYaw t.state.toVec 3) = Angle.ofRad (rotateHeading t.state.yaw.getAngle) :=
    congrArg _ (rotateYaw_heading _ _ rfl)
  refine ⟨_, hf, rfl, ?_, fun h => hy.trans (e1 h), ?_⟩
  · show CtraState.ofVec (rotateYaw t.state.toVec) = _
    unfold CtraState.ofVec
    congr 1
  · show |(Angle.ofRad (rotateYaw t.state.toVec 3)).getAngle - _| < _
    rw [hy]
    rcases le_or_gt t.state.yaw.getAngle yawCut with h | h
    · rw [e1 h, sub_self, abs_zero]; norm_num
    · obtain ⟨c1, c2⟩ := yawCut_bounds
      rw [e2 h, sub_sub_cancel_left, abs_neg, abs_of_pos (by linarith)]
      linarith

/-- the hypotheses of C34 hold for a heading on either side of the cut -/
example : (sampleObj ⟨[1]⟩ 0 1 1).covariance.PosDef ∧ (sampleObj ⟨[1]⟩ 0 4 1).state.yaw.Valid ∧
    yawCut < (sampleObj ⟨[1]⟩ 0 4 1).state.yaw.getAngle := by
  refine ⟨PosDef.one, Angle.valid_ofRad _, ?_⟩
  have := Real.pi_gt_three
  show yawCut < (Angle.ofRad 4).getAngle
  rw [Angle.getAngle_ofRad_of_range (by constructor <;> linarith)]
  unfold yawCut
  norm_num

/-! ## C35 -/

/-- where the fused heading lies, given the headings `a` and `b` of the estimates -/
def HeadingBetween (a b θ : ℝ) : Prop :=
  (a ≤ yawCut ∧ b ≤ yawCut → min a b ≤ θ ∧ θ ≤ max a b) ∧
  (yawCut < a ∧ yawCut < b → min a b - 2 / 10 ^ 12 ≤ θ ∧ θ ≤ max a b) ∧
  (a ≤ yawCut ∧ yawCut < b → ∃ m, SameDir θ m ∧ b - 2 * Real.pi - 2 / 10 ^ 12 ≤ m ∧ m ≤ a) ∧
  (b ≤ yawCut ∧ yawCut < a → ∃ m, SameDir θ m ∧ a - 2 * Real.pi - 2 / 10 ^ 12 ≤ m ∧ m ≤ b)

theorem headingBetween {a b s : ℝ} (ha : 0 ≤ a ∧ a < 2 * Real.pi) (hb : 0 ≤ b ∧ b < 2 * Real.pi)
    (h0 : 0 < s) (h1 : s < 1) : HeadingBetween a b
      (Angle.ofRad (s * rotateHeading a + (1 - s) * rotateHeading b)).getAngle := by
  obtain ⟨c1, c2⟩ := yawCut_bounds
  have hs : 0 < 1 - s := by linarith
  have hmin : min a b ≤ s * a + (1 - s) * b := by
    nlinarith [min_le_left a b, min_le_right a b]
  have hmax : s * a + (1 - s) * b ≤ max a b := by
    nlinarith [le_max_left a b, le_max_right a b]
  have hpi := Real.pi_gt_three
  refine ⟨?_, ?_, ?_, ?_⟩
  · rintro ⟨h, h'⟩
    rw [heading_low ha hb h0 h1 h h']
    exact ⟨hmin, hmax⟩
  · rintro ⟨h, h'⟩
    rw [heading_high ha hb h0 h1 h h']
    constructor <;> linarith
  · rintro ⟨h, h'⟩
    refine ⟨_, Angle.sameDir_getAngle _, ?_⟩
    unfold rotateHeading
    rw [if_neg (not_lt.2 h), if_pos h']
    have : b - 2 * yawCut ≤ a := by linarith
    constructor <;> nlinarith
  · rintro ⟨h, h'⟩
    refine ⟨_, Angle.sameDir_getAngle _, ?_⟩
    unfold rotateHeading
    rw [if_neg (not_lt.2 h), if_pos h']
    have : a - 2 * yawCut ≤ b := by linarith
    constructor <;> nlinarith

/-- C35 (CTRV), the part that holds: if the heading is uncorrelated with the other
variables, the fused heading lies between the headings (up to 2·10⁻¹²) when both are on the
same side of 3.14159265359, and on the arc through 0 otherwise.

Missing from the claim: closeness to the headings when they lie on different sides of
3.14159265359 and near it, where it is false (`C35_opposite`). -/
theorem C35_between_ctrv_partial (t d : DynObj CtrvState CtrvCov) (ht : t.covariance.PosDef)
    (hd : d.covariance.PosDef) (hut : Uncorrelated t.covariance 3)
    (hud : Uncorrelated d.covariance 3) : ∃ f, fusePair t d = .ok f ∧
      HeadingBetween t.state.yaw.getAngle d.state.yaw.getAngle f.state.yaw.getAngle := by
  refine ⟨_, fusePair_posDef t d ht hd, ?_⟩
  obtain ⟨s, h0, h1, he⟩ := fused_component ht hd hut hud
    (rotateYaw (MotionModel.toVec t.state)) (rotateYaw (MotionModel.toVec d.state))
  rw [rotateYaw_heading _ _ rfl, rotateYaw_heading _ _ rfl] at he
  show HeadingBetween _ _ (Angle.ofRad _).getAngle
  rw [he]
  exact headingBetween (Angle.getAngle_range _) (Angle.getAngle_range _) h0 h1

/-- C35 (CTRA), the part that holds; missing: as for CTRV. -/
theorem C35_between_ctra_partial (t d : DynObj CtraState CtraCov) (ht : t.covariance.PosDef)
    (hd : d.covariance.PosDef) (hut : Uncorrelated t.covariance 3)
    (hud : Uncorrelated d.covariance 3) : ∃ f, fusePair t d = .ok f ∧
      HeadingBetween t.state.yaw.getAngle d.state.yaw.getAngle f.state.yaw.getAngle := by
  refine ⟨_, fusePair_posDef t d ht hd, ?_⟩
  obtain ⟨s, h0, h1, he⟩ := fused_component ht hd hut hud
    (rotateYaw (MotionModel.toVec t.state)) (rotateYaw (MotionModel.toVec d.state))
  rw [rotateYaw_heading _ _ rfl, rotateYaw_heading _ _ rfl] at he
  show HeadingBetween _ _ (Angle.ofRad _).getAngle
  rw [he]
  exact headingBetween (Angle.getAngle_range _) (Angle.getAngle_range _) h0 h1

theorem fusePair_same_yaw (t d : DynObj CtrvState CtrvCov) (ht : t.covariance.PosDef)
    (hc : d.covariance = t.covariance) : ∃ f, fusePair t d = .ok f ∧ f.state.yaw =
      Angle.ofRad (1 / 2 * (rotateHeading t.state.yaw.getAngle +
        rotateHeading d.state.yaw.getAngle)) := by
  refine ⟨_, fusePair_same t d ht hc, ?_⟩
  have h1 : rotateYaw t.state.toVec 3 = rotateHeading t.state.yaw.getAngle :=
    rotateYaw_heading _ _ rfl
  have h2 : rotateYaw d.state.toVec 3 = rotateHeading d.state.yaw.getAngle :=
    rotateYaw_heading _ _ rfl
  rw [← h1, ← h2]
  rfl

theorem fusePair_same_yaw_ctra (t d : DynObj CtraState CtraCov) (ht : t.covariance.PosDef)
    (hc : d.covariance = t.covariance) : ∃ f, fusePair t d = .ok f ∧ f.state.yaw =
      Angle.ofRad (1 / 2 * (rotateHeading t.state.yaw.getAngle +
        rotateHeading d.state.yaw.getAngle)) := by
  refine ⟨_, fusePair_same t d ht hc, ?_⟩
  have h1 : rotateYaw t.state.toVec 3 = rotateHeading t.state.yaw.getAngle :=
    rotateYaw_heading _ _ rfl
  have h2 : rotateYaw d.state.toVec 3 = rotateHeading d.state.yaw.getAngle :=
    rotateYaw_heading _ _ rfl
  rw [← h1, ← h2]
  rfl

theorem midpoint_low {a b : ℝ} (ha0 : 0 ≤ a) (hb0 : 0 ≤ b) (ha : a ≤ yawCut) (hb : b ≤ yawCut) :
    (Angle.ofRad (1 / 2 * (rotateHeading a + rotateHeading b))).getAngle = (a + b) / 2 := by
  obtain ⟨c1, c2⟩ := yawCut_bounds
  have hpi := Real.pi_gt_three
  norm_num at c2
  unfold rotateHeading
  rw [if_neg (not_lt.2 ha), if_neg (not_lt.2 hb),
    Angle.getAngle_ofRad_of_range (by constructor <;> linarith)]
  ring

theorem midpoint_high {a b : ℝ} (ha2 : a < 2 * Real.pi) (hb2 : b < 2 * Real.pi) (ha : yawCut < a)
    (hb : yawCut < b) :
    |(Angle.ofRad (1 / 2 * (rotateHeading a + rotateHeading b))).getAngle - (a + b) / 2| <
      2 / 10 ^ 12 := by
  obtain ⟨c1, c2⟩ := yawCut_bounds
  have hpi := Real.pi_gt_three
  have e : Angle.ofRad (1 / 2 * (rotateHeading a + rotateHeading b)) =
      Angle.ofRad ((a + b) / 2 - 2 * (yawCut - Real.pi)) := by
    rw [Angle.ofRad_eq_iff]
    refine ⟨-1, ?_⟩
    unfold rotateHeading
    rw [if_pos ha, if_pos hb]
    push_cast
    ring
  rw [e, Angle.getAngle_ofRad_of_range (by norm_num at c2; constructor <;> linarith),
    sub_sub_cancel_left, abs_neg, abs_of_pos (by linarith)]
  linarith

/-- C35, the part that holds: with equal covariances, headings on the same side of 3.14159265359
are fused to their midpoint (above it up to 2·10⁻¹²).

Missing: headings on different sides (`C35_opposite`). -/
theorem C35_midpoint_partial :
    (∀ t d : DynObj CtrvState CtrvCov, t.covariance.PosDef → d.covariance = t.covariance →
      ∃ f, fusePair t d = .ok f ∧
        (t.state.yaw.getAngle ≤ yawCut → d.state.yaw.getAngle ≤ yawCut →
          f.state.yaw.getAngle = (t.state.yaw.getAngle + d.state.yaw.getAngle) / 2) ∧
        (yawCut < t.state.yaw.getAngle → yawCut < d.state.yaw.getAngle →
          |f.state.yaw.getAngle - (t.state.yaw.getAngle + d.state.yaw.getAngle) / 2| < 2 / 10 ^ 12)) ∧
    ∀ t d : DynObj CtraState CtraCov, t.covariance.PosDef → d.covariance = t.covariance →
      ∃ f, fusePair t d = .ok f ∧
        (t.state.yaw.getAngle ≤ yawCut → d.state.yaw.getAngle ≤ yawCut →
          f.state.yaw.getAngle = (t.state.yaw.getAngle + d.state.yaw.getAngle) / 2) ∧
        (yawCut < t.state.yaw.getAngle → yawCut < d.state.yaw.getAngle →
          |f.state.yaw.getAngle - (t.state.yaw.getAngle + d.state.yaw.getAngle) / 2| < 2 / 10 ^ 12) := by
  constructor
  · intro t d ht hc
    obtain ⟨f, hf, hy⟩ := fusePair_same_yaw t d ht hc
    have h1 := Angle.getAngle_range t.state.yaw
    have h2 := Angle.getAngle_range d.state.yaw
    refine ⟨f, hf, fun ha hb => ?_, fun ha hb => ?_⟩
    · rw [hy, midpoint_low h1.1 h2.1 ha hb]
    · rw [hy]; exact midpoint_high h1.2 h2.2 ha hb
  · intro t d ht hc
    obtain ⟨f, hf, hy⟩ := fusePair_same_yaw_ctra t d ht hc
    have h1 := Angle.getAngle_range t.state.yaw
    have h2 := Angle.getAngle_range d.state.yaw
    refine ⟨f, hf, fun ha hb => ?_, fun ha hb => ?_⟩
    · rw [hy, midpoint_low h1.1 h2.1 ha hb]
    · rw [hy]; exact midpoint_high h1.2 h2.2 ha hb

/-- C35: with equal covariances, headings on different sides of 3.14159265359 are fused to
the direction opposite to their midpoint (up to 10⁻¹²), however close they are. -/
theorem C35_opposite (t d : DynObj CtrvState CtrvCov) (ht : t.covariance.PosDef)
    (hc : d.covariance = t.covariance) (h1 : t.state.yaw.getAngle ≤ yawCut)
    (h2 : yawCut < d.state.yaw.getAngle) : ∃ f ε, fusePair t d = .ok f ∧ |ε| < 1 / 10 ^ 12 ∧
      SameDir f.state.yaw.getAngle
        ((t.state.yaw.getAngle + d.state.yaw.getAngle) / 2 + Real.pi + ε) := by
  obtain ⟨c1, c2⟩ := yawCut_bounds
  obtain ⟨f, hf, hy⟩ := fusePair_same_yaw t d ht hc
  refine ⟨f, -(yawCut - Real.pi), hf, ?_, ?_⟩
  · rw [abs_neg, abs_of_pos (by linarith)]; exact c2
  · rw [hy]
    refine (Angle.sameDir_getAngle _).trans ⟨-1, ?_⟩
    unfold rotateHeading
    rw [if_neg (not_lt.2 h1), if_pos h2]
    push_cast
    ring

/-- C35 (CTRA): the same. -/
theorem C35_opposite_ctra (t d : DynObj CtraState CtraCov) (ht : t.covariance.PosDef)
    (hc : d.covariance = t.covariance) (h1 : t.state.yaw.getAngle ≤ yawCut)
    (h2 : yawCut < d.state.yaw.getAngle) : ∃ f ε, fusePair t d = .ok f ∧ |ε| < 1 / 10 ^ 12 ∧
      SameDir f.state.yaw.getAngle
        ((t.state.yaw.getAngle + d.state.yaw.getAngle) / 2 + Real.pi + ε) := by
  obtain ⟨c1, c2⟩ := yawCut_bounds
  obtain ⟨f, hf, hy⟩ := fusePair_same_yaw_ctra t d ht hc
  refine ⟨f, -(yawCut - Real.pi), hf, ?_, ?_⟩
  · rw [abs_neg, abs_of_pos (by linarith)]; exact c2
  · rw [hy]
    refine (Angle.sameDir_getAngle _).trans ⟨-1, ?_⟩
    unfold rotateHeading
    rw [if_neg (not_lt.2 h1), if_pos h2]
    push_cast
    ring

/-- C35 as stated is false: headings π − 1/10 and π + 1/10, equal unit covariances, and the
fused heading is not between them. -/
theorem C35_false : ∃ t d f : DynObj CtrvState CtrvCov, fusePair t d = .ok f ∧
    t.covariance = 1 ∧ d.covariance = 1 ∧ t.state.yaw.getAngle = Real.pi - 1 / 10 ∧
    d.state.yaw.getAngle = Real.pi + 1 / 10 ∧
    ¬ (Real.pi - 1 ≤ f.state.yaw.getAngle ∧ f.state.yaw.getAngle ≤ Real.pi + 1) := by
  have hpi := Real.pi_gt_three
  obtain ⟨c1, c2⟩ := yawCut_bounds
  have hc : yawCut < Real.pi + 1 / 10 := by norm_num at c2; linarith
  have e1 : (Angle.ofRad (Real.pi - 1 / 10)).getAngle = Real.pi - 1 / 10 :=
    Angle.getAngle_ofRad_of_range (by constructor <;> linarith)
  have e2 : (Angle.ofRad (Real.pi + 1 / 10)).getAngle = Real.pi + 1 / 10 :=
    Angle.getAngle_ofRad_of_range (by constructor <;> linarith)
  obtain ⟨f, hf, hy⟩ := fusePair_same_yaw (sampleObj ⟨[1]⟩ 0 (Real.pi - 1 / 10) 1)
    (sampleObj ⟨[2]⟩ 0 (Real.pi + 1 / 10) 1) PosDef.one rfl
  refine ⟨_, _, f, hf, rfl, rfl, e1, e2, ?_⟩
  rw [hy]
  simp only [sampleObj]
  rw [e1, e2]
  unfold rotateHeading
  rw [if_neg (by linarith), if_pos hc]
  have : Angle.ofRad (1 / 2 * (Real.pi - 1 / 10 + (Real.pi + 1 / 10 - 2 * yawCut))) =
      Angle.ofRad (2 * Real.pi - (yawCut - Real.pi)) := by
    rw [Angle.ofRad_eq_iff]
    refine ⟨-1, ?_⟩
    push_cast
    ring
  norm_num at c2
  rw [this, Angle.getAngle_ofRad_of_range (by constructor <;> linarith)]
  rintro ⟨-, h⟩
  linarith

/-- m is the direction of the sum of the unit vectors with directions a and b -/
def MeanDirection (a b m : ℝ) : Prop :=
  ∃ r : ℝ, 0 ≤ r ∧ Real.cos a + Real.cos b = r * Real.cos m ∧
    Real.sin a + Real.sin b = r * Real.sin m

theorem meanDirection_half {a b m : ℝ} (h : MeanDirection a b m) :
    ∃ r : ℝ, 0 ≤ r ∧ 2 * Real.cos ((a - b) / 2) = r * Real.cos (m - (a + b) / 2) := by
  obtain ⟨r, hr, h1, h2⟩ := h
  refine ⟨r, hr, ?_⟩
  rw [Real.cos_add_cos] at h1
  rw [Real.sin_add_sin] at h2
  rw [Real.cos_sub]
  have := Real.cos_sq_add_sin_sq ((a + b) / 2)
  linear_combination Real.cos ((a + b) / 2) * h1 + Real.sin ((a + b) / 2) * h2 -
    2 * Real.cos ((a - b) / 2) * this

theorem half_cos_nonneg {a b : ℝ} (h : |a - b| ≤ Real.pi) : 0 ≤ Real.cos ((a - b) / 2) := by
  obtain ⟨h1, h2⟩ := abs_le.1 h
  exact Real.cos_nonneg_of_neg_pi_div_two_le_of_le (by linarith) (by linarith)

theorem half_cos_neg {a b : ℝ} (ha : 0 ≤ a ∧ a < 2 * Real.pi) (hb : 0 ≤ b ∧ b < 2 * Real.pi)
    (h : Real.pi < |a - b|) : Real.cos ((a - b) / 2) < 0 := by
  have hpi := Real.pi_pos
  rw [← Real.cos_abs, abs_div, abs_of_pos (two_pos : (0 : ℝ) < 2)]
  have : |a - b| < 2 * Real.pi := abs_lt.2 (by constructor <;> linarith)
  exact Real.cos_neg_of_pi_div_two_lt_of_lt (by linarith) (by linarith)

theorem half_cos_nonpos {a b : ℝ} (ha : 0 ≤ a ∧ a < 2 * Real.pi) (hb : 0 ≤ b ∧ b < 2 * Real.pi)
    (h : Real.pi ≤ |a - b|) : Real.cos ((a - b) / 2) ≤ 0 := by
  have hpi := Real.pi_pos
  rw [← Real.cos_abs, abs_div, abs_of_pos (two_pos : (0 : ℝ) < 2)]
  have : |a - b| < 2 * Real.pi := abs_lt.2 (by constructor <;> linarith)
  exact Real.cos_nonpos_of_pi_div_two_le_of_le (by linarith) (by linarith)

theorem half_cos_pos {a b : ℝ} (h : |a - b| < Real.pi) : 0 < Real.cos ((a - b) / 2) := by
  obtain ⟨h1, h2⟩ := abs_lt.1 h
  exact Real.cos_pos_of_mem_Ioo ⟨by linarith, by linarith⟩

theorem cos_small_pos {x : ℝ} (h : |x| < 1) : 0 < Real.cos x := by
  have hpi := Real.pi_gt_three
  obtain ⟨h1, h2⟩ := abs_lt.1 h
  exact Real.cos_pos_of_mem_Ioo ⟨by linarith, by linarith⟩

/-- near the mean direction exactly if on the side of the midpoint that is nearer to both -/
theorem meanDirection_iff {a b : ℝ} (ha : 0 ≤ a ∧ a < 2 * Real.pi) (hb : 0 ≤ b ∧ b < 2 * Real.pi) :
    (∃ ε, |ε| < 2 / 10 ^ 12 ∧ MeanDirection a b
        ((Angle.ofRad (1 / 2 * (rotateHeading a + rotateHeading b))).getAngle + ε)) ↔
      ((a ≤ yawCut ↔ b ≤ yawCut) ∧ |a - b| ≤ Real.pi ∨
        ¬ (a ≤ yawCut ↔ b ≤ yawCut) ∧ Real.pi ≤ |a - b|) := by
  obtain ⟨c1, c2⟩ := yawCut_bounds
  -- the fused heading, up to whole turns
  obtain ⟨k, hk⟩ := Angle.sameDir_getAngle (1 / 2 * (rotateHeading a + rotateHeading b))
  rw [hk]
  have per : ∀ x m : ℝ, MeanDirection a b (x + k * (2 * Real.pi) + m) ↔ MeanDirection a b (x + m) := by
    intro x m
    unfold MeanDirection
    rw [show x + k * (2 * Real.pi) + m = x + m + k * (2 * Real.pi) by ring,
      Real.cos_add_int_mul_two_pi, Real.sin_add_int_mul_two_pi]
  simp only [per]
  -- on the side of the midpoint
  have same : ∀ δ : ℝ, |δ| < 2 / 10 ^ 12 →
      ((∃ ε, |ε| < 2 / 10 ^ 12 ∧ MeanDirection a b ((a + b) / 2 + δ + ε)) ↔ |a - b| ≤ Real.pi) := by
    intro δ hδ
    constructor
    · rintro ⟨ε, hε, hm⟩
      by_contra hcon
      obtain ⟨r, hr, he⟩ := meanDirection_half hm
      have h1 := half_cos_neg ha hb (not_le.1 hcon)
      rw [show (a + b) / 2 + δ + ε - (a + b) / 2 = δ + ε by ring] at he
      have h2 := cos_small_pos (x := δ + ε) (lt_of_le_of_lt (abs_add_le _ _) (by
        norm_num at hδ hε ⊢; linarith))
      nlinarith
    · intro h
      refine ⟨-δ, by rwa [abs_neg], 2 * Real.cos ((a - b) / 2), ?_, ?_, ?_⟩
      · have := half_cos_nonneg h; linarith
      · rw [Real.cos_add_cos, add_neg_cancel_right]; ring
      · rw [Real.sin_add_sin, add_neg_cancel_right]; ring
  -- on the opposite side
  have opp : ∀ δ : ℝ, |δ| < 2 / 10 ^ 12 →
      ((∃ ε, |ε| < 2 / 10 ^ 12 ∧ MeanDirection a b ((a + b) / 2 - Real.pi + δ + ε)) ↔
        Real.pi ≤ |a - b|) := by
    intro δ hδ
    constructor
    · rintro ⟨ε, hε, hm⟩
      by_contra hcon
      obtain ⟨r, hr, he⟩ := meanDirection_half hm
      have h1 := half_cos_pos (not_le.1 hcon)
      rw [show (a + b) / 2 - Real.pi + δ + ε - (a + b) / 2 = (δ + ε) - Real.pi by ring,
        Real.cos_sub_pi] at he
      have h2 := cos_small_pos (x := δ + ε) (lt_of_le_of_lt (abs_add_le _ _) (by
        norm_num at hδ hε ⊢; linarith))
      nlinarith
    · intro h
      refine ⟨-δ, by rwa [abs_neg], -(2 * Real.cos ((a - b) / 2)), ?_, ?_, ?_⟩
      · have := half_cos_nonpos ha hb h; linarith
      · rw [Real.cos_add_cos, add_neg_cancel_right, Real.cos_sub_pi]; ring
      · rw [Real.sin_add_sin, add_neg_cancel_right, Real.sin_sub_pi]; ring
  have hp : |-(yawCut - Real.pi)| < 2 / 10 ^ 12 := by
    rw [abs_neg, abs_of_pos (by linarith)]; norm_num at c2 ⊢; linarith
  have hp2 : |-(2 * (yawCut - Real.pi))| < 2 / 10 ^ 12 := by
    rw [abs_neg, abs_of_pos (by linarith)]; norm_num at c2 ⊢; linarith
  have per2 : ∀ x : ℝ, MeanDirection a b (x - 2 * Real.pi) ↔ MeanDirection a b x := by
    intro x
    unfold MeanDirection
    rw [Real.cos_sub_two_pi, Real.sin_sub_two_pi]
  unfold rotateHeading
  by_cases h1 : a ≤ yawCut <;> by_cases h2 : b ≤ yawCut
  · rw [if_neg (not_lt.2 h1), if_neg (not_lt.2 h2)]
    have e := same 0 (by norm_num)
    simp only [h1, h2, true_and, not_true_eq_false, false_and, or_false, iff_self]
    rw [← e]
    simp only [add_zero]
    rw [show 1 / 2 * (a + b) = (a + b) / 2 by ring]
  · rw [if_neg (not_lt.2 h1), if_pos (not_le.1 h2)]
    have e := opp _ hp
    simp only [h1, h2, false_and, not_false_eq_true, true_and, false_or, iff_false,
      not_true_eq_false]
    rw [← e]
    rw [show 1 / 2 * (a + (b - 2 * yawCut)) = (a + b) / 2 - Real.pi + -(yawCut - Real.pi) by ring]
  · rw [if_pos (not_le.1 h1), if_neg (not_lt.2 h2)]
    have e := opp _ hp
    simp only [h1, h2, false_and, not_false_eq_true, true_and, false_or, iff_true]
    rw [← e]
    rw [show 1 / 2 * ((a - 2 * yawCut) + b) = (a + b) / 2 - Real.pi + -(yawCut - Real.pi) by ring]
  · rw [if_pos (not_le.1 h1), if_pos (not_le.1 h2)]
    have e := same _ hp2
    simp only [h1, h2, true_and, not_true_eq_false, false_and, or_false, iff_self]
    rw [← e]
    have : ∀ ε, 1 / 2 * ((a - 2 * yawCut) + (b - 2 * yawCut)) + ε =
        (a + b) / 2 + -(2 * (yawCut - Real.pi)) + ε - 2 * Real.pi := fun ε => by ring
    simp only [this, per2]

/-- C35: with equal covariances the fused heading is (up to 2·10⁻¹²) the mean of the two headings as
directions exactly if they lie on the same side of 3.14159265359 and differ by at most π, or lie on
different sides and differ (as numbers) by at least π. -/
theorem C35_iff :
    (∀ t d : DynObj CtrvState CtrvCov, t.covariance.PosDef → d.covariance = t.covariance →
      ∃ f, fusePair t d = .ok f ∧
        ((∃ ε, |ε| < 2 / 10 ^ 12 ∧ MeanDirection t.state.yaw.getAngle d.state.yaw.getAngle
            (f.state.yaw.getAngle + ε)) ↔
          ((t.state.yaw.getAngle ≤ yawCut ↔ d.state.yaw.getAngle ≤ yawCut) ∧
              |t.state.yaw.getAngle - d.state.yaw.getAngle| ≤ Real.pi ∨
            ¬ (t.state.yaw.getAngle ≤ yawCut ↔ d.state.yaw.getAngle ≤ yawCut) ∧
              Real.pi ≤ |t.state.yaw.getAngle - d.state.yaw.getAngle|))) ∧
    ∀ t d : DynObj CtraState CtraCov, t.covariance.PosDef → d.covariance = t.covariance →
      ∃ f, fusePair t d = .ok f ∧
        ((∃ ε, |ε| < 2 / 10 ^ 12 ∧ MeanDirection t.state.yaw.getAngle d.state.yaw.getAngle
            (f.state.yaw.getAngle + ε)) ↔
          ((t.state.yaw.getAngle ≤ yawCut ↔ d.state.yaw.getAngle ≤ yawCut) ∧
              |t.state.yaw.getAngle - d.state.yaw.getAngle| ≤ Real.pi ∨
            ¬ (t.state.yaw.getAngle ≤ yawCut ↔ d.state.yaw.getAngle ≤ yawCut) ∧
              Real.pi ≤ |t.state.yaw.getAngle - d.state.yaw.getAngle|)) := by
  constructor
  · intro t d ht hc
    obtain ⟨f, hf, hy⟩ := fusePair_same_yaw t d ht hc
    exact ⟨f, hf, hy ▸ meanDirection_iff (Angle.getAngle_range _) (Angle.getAngle_range _)⟩
  · intro t d ht hc
    obtain ⟨f, hf, hy⟩ := fusePair_same_yaw_ctra t d ht hc
    exact ⟨f, hf, hy ▸ meanDirection_iff (Angle.getAngle_range _) (Angle.getAngle_range _)⟩

/-- the headings 1/10 and 2π − 1/10 are fused to their mean direction (0, up to the tolerance) -/
example : ∃ f, fusePair (sampleObj ⟨[1]⟩ 0 (1 / 10) 1) (sampleObj ⟨[2]⟩ 0 (2 * Real.pi - 1 / 10) 1) =
    .ok f ∧ ∃ ε, |ε| < 2 / 10 ^ 12 ∧
      MeanDirection (1 / 10) (2 * Real.pi - 1 / 10) (f.state.yaw.getAngle + ε) := by
  have hpi := Real.pi_gt_three
  obtain ⟨c1, c2⟩ := yawCut_bounds
  norm_num at c2
  have e1 : (Angle.ofRad (1 / 10)).getAngle = 1 / 10 :=
    Angle.getAngle_ofRad_of_range (by constructor <;> linarith)
  have e2 : (Angle.ofRad (2 * Real.pi - 1 / 10)).getAngle = 2 * Real.pi - 1 / 10 :=
    Angle.getAngle_ofRad_of_range (by constructor <;> linarith)
  obtain ⟨f, hf, h⟩ := C35_iff.1 (sampleObj ⟨[1]⟩ 0 (1 / 10) 1)
    (sampleObj ⟨[2]⟩ 0 (2 * Real.pi - 1 / 10) 1) PosDef.one rfl
  simp only [sampleObj] at h
  rw [e1, e2] at h
  refine ⟨f, hf, h.2 (.inr ⟨?_, ?_⟩)⟩
  · intro hh
    have := hh.1 (by linarith)
    linarith
  · rw [abs_sub_comm]
    exact le_trans (by linarith) (le_abs_self _)


example : Uncorrelated (2 : CtrvCov) 3 := by
  intro j hj
  have : (2 : CtrvCov) = (2 : ℝ) • 1 := by rw [two_smul, one_add_one_eq_two]
  rw [this, Matrix.smul_apply, one_apply_ne (Ne.symm hj), smul_zero]

end Mot.Props
