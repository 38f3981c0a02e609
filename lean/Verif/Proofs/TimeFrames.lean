import Verif.Spec.TimeFrames
import Verif.Spec.Pipeline
import Verif.Proofs.FrameChange
/-!
# Lemmas about changes of the origin and the unit of time
-/

set_option linter.unusedSectionVars false

namespace Mot

open Matrix Spec Real

/-! ## Origin -/

theorem isHom_later {S₁ C₁ S₂ C₂ : Type} (c : ℝ) :
    IsHom (later c : Obj2 S₁ C₁ S₂ C₂ → Obj2 S₁ C₁ S₂ C₂) (· + c) where
  uuid t := by rcases t with t | t <;> rfl
  timestamp t := by rcases t with t | t <;> rfl
  setTimestamp t x := by rcases t with t | t <;> rfl
  copyState t s := by rcases t with t | t <;> rcases s with s | s <;> rfl
  copyCovariance t s := by rcases t with t | t <;> rcases s with s | s <;> rfl

theorem predict2_later {S₁ C₁ S₂ C₂ : Type} (c time : ℝ) (p₁ : Propagator S₁ C₁)
    (p₂ : Propagator S₂ C₂) (o : Obj2 S₁ C₁ S₂ C₂) :
    predict2 (later c o) (time + c) p₁ p₂ = onResult (later c) (predict2 o time p₁ p₂) := by
  rcases o with o | o
  · show predict2 (.inl (later c o)) _ _ _ = _
    simp only [predict2, propagate2, propagate]
    rw [show time + c - (later c o).timestamp = time - o.timestamp from add_sub_add_right_eq_sub _ _ _,
      show (later c o).state = o.state from rfl, show (later c o).covariance = o.covariance from rfl]
    rcases p₁ (time - o.timestamp) (o.state, o.covariance) with ⟨⟨s, C⟩, u | e | w⟩ <;> rfl
  · show predict2 (.inr (later c o)) _ _ _ = _
    simp only [predict2, propagate2, propagate]
    rw [show time + c - (later c o).timestamp = time - o.timestamp from add_sub_add_right_eq_sub _ _ _,
      show (later c o).state = o.state from rfl, show (later c o).covariance = o.covariance from rfl]
    rcases p₂ (time - o.timestamp) (o.state, o.covariance) with ⟨⟨s, C⟩, u | e | w⟩ <;> rfl

theorem fusePair_later {S : Type} {n : ℕ} [MotionModel S n] (c : ℝ)
    (t d : DynObj S (Matrix (Fin n) (Fin n) ℝ)) :
    fusePair (later c t) (later c d) = onResult (later c) (fusePair t d) := by
  have e : ∀ M : Matrix (Fin n) (Fin n) ℝ, M = 1 * M * 1ᵀ := fun M => by
    rw [one_mul, transpose_one, mul_one]
  have ev : ∀ v : Fin n → ℝ, v = 1 *ᵥ v + 0 := fun v => by rw [one_mulVec, add_zero]
  rcases fusePair_affine (R := 1) (R' := 1) (one_mul 1) (c := 0) (t := t) (d := d) (t' := later c t)
    (d' := later c d) (e _) (e _) (ev _) (ev _) with ⟨w, h1, h2⟩ | ⟨m, C, h1, h2⟩
  · rw [h1, h2]; rfl
  · rw [h1, h2, ← e, ← ev]; rfl

theorem ciVisitor_later (c : ℝ) (t d : MotObj) :
    ciVisitor (later c t) (later c d) = onResult (later c) (ciVisitor t d) := by
  rcases t with t | t <;> rcases d with d | d
  · show (match fusePair (later c t) (later c d) with
      | .ok f => .ok (.inl f)
      | .throw e => .throw e
      | .ub w => .ub w : Outcome MotObj) = onResult _ (match fusePair t d with
      | .ok f => .ok (.inl f)
      | .throw e => .throw e
      | .ub w => .ub w : Outcome MotObj)
    rw [fusePair_later]
    cases fusePair t d <;> rfl
  · rfl
  · rfl
  · show (match fusePair (later c t) (later c d) with
      | .ok f => .ok (.inr f)
      | .throw e => .throw e
      | .ub w => .ub w : Outcome MotObj) = onResult _ (match fusePair t d with
      | .ok f => .ok (.inr f)
      | .throw e => .throw e
      | .ub w => .ub w : Outcome MotObj)
    rw [fusePair_later]
    cases fusePair t d <;> rfl

/-! ## Clusters of objects that clustering does not tell apart -/

section
variable {δ : Type} [Clusterable δ] {g : δ → δ}

/-- `c'` is `c` with all detections replaced -/
def ReplacedBy (g : δ → δ) (c c' : Cluster δ) : Prop :=
  c'.stateSum = c.stateSum ∧
  c'.detections.entries = c.detections.entries.map fun e => (e.1, g e.2)

theorem ReplacedBy.find? {c c' : Cluster δ} (h : ReplacedBy g c c') (u : Uuid) :
    c'.detections.find? u = (c.detections.find? u).map g := by
  unfold UMap.find?
  rw [h.2]
  exact AList.find?_map_vals (fun _ => g)

variable (hu : ∀ d : δ, ClusterableOf.uuid (P := Point) (g d) = ClusterableOf.uuid (P := Point) d)
  (ha : ∀ (P : Point) (d : δ), ClusterableOf.addTo P (g d) = ClusterableOf.addTo P d)

include hu ha

theorem ReplacedBy.add {c c' : Cluster δ} (h : ReplacedBy g c c') (d : δ) :
    ReplacedBy g (c.add d) (c'.add (g d)) := by
  constructor
  · show ClusterableOf.addTo c'.stateSum (g d) = _
    rw [h.1, ha]
    rfl
  · show (c'.detections.emplace (ClusterableOf.uuid (P := Point) (g d)) (g d)).entries =
      (c.detections.emplace (ClusterableOf.uuid (P := Point) d) d).entries.map _
    rw [hu]
    by_cases hn : c.detections.find? (ClusterableOf.uuid (P := Point) d) = none
    · rw [UMap.emplace_entries hn, UMap.emplace_entries (by rw [h.find?, hn]; rfl), h.2]
      rfl
    · rw [UMap.emplace_of_some hn, UMap.emplace_of_some (by rw [h.find?]; simpa using hn), h.2]

theorem ReplacedBy.foldl {c c' : Cluster δ} (h : ReplacedBy g c c') (l : List δ) :
    ReplacedBy g (l.foldl ClusterOf.add c) ((l.map g).foldl ClusterOf.add c') := by
  induction l generalizing c c' with
  | nil => exact h
  | cons d l ih => exact ih (h.add hu ha d)

theorem clusterDetections_replaced
    (hp : ∀ d : δ, (ClusterableOf.makePoint (g d) : Point) = ClusterableOf.makePoint d)
    {within : Point → δ → Bool} (hw : ∀ P d, within P (g d) = within P d) (ds : List δ) :
    List.Forall₂ (ReplacedBy g) (clusterDetections within ds)
      (clusterDetections within (ds.map g)) := by
  induction ds using cluster_induction within with
  | h0 => simp [clusterDetections_nil]
  | h1 l o ih =>
    rw [List.map_append, List.map_singleton, clusterDetections_concat, clusterDetections_concat,
      List.filter_map, List.filter_map, hp]
    have e1 : within (ClusterableOf.makePoint o) ∘ g = within (ClusterableOf.makePoint o) := by
      funext d
      rw [Function.comp_apply, hw]
    have e2 : (fun d => !within (ClusterableOf.makePoint o) d) ∘ g =
        fun d => !within (ClusterableOf.makePoint o) d := by
      funext d
      rw [Function.comp_apply, hw]
    rw [e1, e2]
    refine List.Forall₂.cons (ReplacedBy.foldl hu ha (ReplacedBy.add hu ha ?_ o) _) ih
    exact ⟨rfl, rfl⟩

end

/-! ## Units -/

theorem rateKept_iff {k ω : ℝ} : RateKept k ω ↔ (unitsEq (ω / k) 0 ↔ unitsEq ω 0) := by
  unfold RateKept
  rw [unitsEq_zero_iff, unitsEq_zero_iff]

theorem CtrvState.next_retime {k : ℝ} (hk : k ≠ 0) {s : CtrvState} (hs : RateKept k s.yawRate)
    (t : ℝ) : (retime k s).next (k * t) = retime k (s.next t) := by
  have hr : (retime k s).yawRate = s.yawRate / k := rfl
  have hv : (retime k s).v = s.v / k := rfl
  have hx : (retime k s).x = s.x := rfl
  have hy : (retime k s).y = s.y := rfl
  have hw : (retime k s).yaw = s.yaw := rfl
  have hω : s.yawRate / k * (k * t) = s.yawRate * t := by field_simp
  have h' := rateKept_iff.1 hs
  refine CtrvState.ext' ?_ ?_ rfl ?_ rfl
  · show _ = (s.next t).x
    by_cases h : unitsEq s.yawRate 0
    · rw [(next_straight h t).1, (next_straight (s := retime k s) (h'.2 h) _).1, hv, hx, hw]
      field_simp
    · rw [(next_turn h t).1, (next_turn (s := retime k s) (mt h'.1 h) _).1, hv, hx, hw, hr, hω,
        div_div_div_cancel_right₀ hk]
  · show _ = (s.next t).y
    by_cases h : unitsEq s.yawRate 0
    · rw [(next_straight h t).2, (next_straight (s := retime k s) (h'.2 h) _).2, hv, hy, hw]
      field_simp
    · rw [(next_turn h t).2, (next_turn (s := retime k s) (mt h'.1 h) _).2, hv, hy, hw, hr, hω,
        div_div_div_cancel_right₀ hk]
  · show s.yaw.add (Angle.ofRad (s.yawRate / k * (k * t))) = s.yaw.add (Angle.ofRad (s.yawRate * t))
    rw [hω]

theorem CtraState.next_retime {k : ℝ} (hk : k ≠ 0) {s : CtraState} (hs : RateKept k s.yawRate)
    (t : ℝ) : (retime k s).next (k * t) = retime k (s.next t) := by
  have hr : (retime k s).yawRate = s.yawRate / k := rfl
  have hv : (retime k s).v = s.v / k := rfl
  have ha : (retime k s).a = s.a / k ^ 2 := rfl
  have hx : (retime k s).x = s.x := rfl
  have hy : (retime k s).y = s.y := rfl
  have hw : (retime k s).yaw = s.yaw := rfl
  have hω : s.yawRate / k * (k * t) = s.yawRate * t := by field_simp
  have h' := rateKept_iff.1 hs
  have h0 : ¬ unitsEq s.yawRate 0 → s.yawRate ≠ 0 := by
    rintro h h0
    rw [h0, unitsEq_zero_iff, abs_zero] at h
    exact h dblMin_pos
  refine CtraState.ext' ?_ ?_ ?_ ?_ rfl rfl
  · show _ = (s.next t).x
    by_cases h : unitsEq s.yawRate 0
    · rw [(next_straight h t).1, (next_straight (s := retime k s) (h'.2 h) _).1, hv, hx, hw, ha]
      field_simp
    · have := h0 h
      rw [(next_turn h t).1, (next_turn (s := retime k s) (mt h'.1 h) _).1, hv, hx, hw, hr, ha, hω]
      field_simp
  · show _ = (s.next t).y
    by_cases h : unitsEq s.yawRate 0
    · rw [(next_straight h t).2, (next_straight (s := retime k s) (h'.2 h) _).2, hv, hy, hw, ha]
      field_simp
    · have := h0 h
      rw [(next_turn h t).2, (next_turn (s := retime k s) (mt h'.1 h) _).2, hv, hy, hw, hr, ha, hω]
      field_simp
  · show s.v / k + s.a / k ^ 2 * (k * t) = (s.v + s.a * t) / k
    field_simp
  · show s.yaw.add (Angle.ofRad (s.yawRate / k * (k * t))) = s.yaw.add (Angle.ofRad (s.yawRate * t))
    rw [hω]

theorem timeMatrix_mulVec {n : ℕ} (k : ℝ) (v : Fin n → ℝ) (i : Fin n) : (timeMatrix n k *ᵥ v) i =
    (if i.1 = 2 ∨ i.1 = 4 then 1 / k else if i.1 = 5 then 1 / k ^ 2 else 1) * v i :=
  mulVec_diagonal _ _ _

theorem timeMatrix_inv {n : ℕ} {k : ℝ} (hk : k ≠ 0) :
    timeMatrix n k⁻¹ * timeMatrix n k = 1 := by
  unfold timeMatrix
  rw [diagonal_mul_diagonal, ← diagonal_one]
  congr 1
  funext i
  split
  · field_simp
  · split
    · field_simp
    · exact one_mul 1

/-- what the generic proofs use of a change of the unit of time -/
class RetimeLaws (S : Type) (n : outParam ℕ) [MotionModel S n] [Retimable S] : Prop where
  toVec_retime : ∀ (k : ℝ) (s : S), MotionModel.toVec (retime k s) =
    timeMatrix n k *ᵥ MotionModel.toVec s
  ofVec_retime : ∀ (k : ℝ) (v : Fin n → ℝ), (MotionModel.ofVec (timeMatrix n k *ᵥ v) : S) =
    retime k (MotionModel.ofVec v)
  add_retime : ∀ (k : ℝ) (s d : S), MotionModel.add (retime k s) (retime k d) =
    retime k (MotionModel.add s d)
  sub_retime : ∀ (k : ℝ) (s d : S), MotionModel.sub (retime k s) (retime k d) =
    retime k (MotionModel.sub s d)

instance retimeLawsCtrv : RetimeLaws CtrvState 5 where
  toVec_retime k s := by
    funext i
    rw [timeMatrix_mulVec]
    fin_cases i
    · exact (one_mul _).symm
    · exact (one_mul _).symm
    · exact (one_div_mul_eq_div _ _).symm
    · exact (one_mul _).symm
    · exact (one_div_mul_eq_div _ _).symm
  ofVec_retime k v := by
    refine CtrvState.ext' ?_ ?_ ?_ ?_ ?_
    · exact (timeMatrix_mulVec k v 0).trans (one_mul _)
    · exact (timeMatrix_mulVec k v 1).trans (one_mul _)
    · exact (timeMatrix_mulVec k v 2).trans (one_div_mul_eq_div _ _)
    · exact congrArg Angle.ofRad ((timeMatrix_mulVec k v 3).trans (one_mul _))
    · exact (timeMatrix_mulVec k v 4).trans (one_div_mul_eq_div _ _)
  add_retime k s d := CtrvState.ext' rfl rfl (add_div _ _ _).symm rfl (add_div _ _ _).symm
  sub_retime k s d := CtrvState.ext' rfl rfl (sub_div _ _ _).symm rfl (sub_div _ _ _).symm

instance retimeLawsCtra : RetimeLaws CtraState 6 where
  toVec_retime k s := by
    funext i
    rw [timeMatrix_mulVec]
    fin_cases i
    · exact (one_mul _).symm
    · exact (one_mul _).symm
    · exact (one_div_mul_eq_div _ _).symm
    · exact (one_mul _).symm
    · exact (one_div_mul_eq_div _ _).symm
    · exact (one_div_mul_eq_div _ _).symm
  ofVec_retime k v := by
    refine CtraState.ext' ?_ ?_ ?_ ?_ ?_ ?_
    · exact (timeMatrix_mulVec k v 0).trans (one_mul _)
    · exact (timeMatrix_mulVec k v 1).trans (one_mul _)
    · exact (timeMatrix_mulVec k v 2).trans (one_div_mul_eq_div _ _)
    · exact congrArg Angle.ofRad ((timeMatrix_mulVec k v 3).trans (one_mul _))
    · exact (timeMatrix_mulVec k v 4).trans (one_div_mul_eq_div _ _)
    · exact (timeMatrix_mulVec k v 5).trans (one_div_mul_eq_div _ _)
  add_retime k s d := CtraState.ext' rfl rfl (add_div _ _ _).symm rfl (add_div _ _ _).symm
    (add_div _ _ _).symm
  sub_retime k s d := CtraState.ext' rfl rfl (sub_div _ _ _).symm rfl (sub_div _ _ _).symm
    (sub_div _ _ _).symm

theorem rotateYaw_retime {n : ℕ} (k : ℝ) (v : Fin n → ℝ) :
    rotateYaw (timeMatrix n k *ᵥ v) = timeMatrix n k *ᵥ rotateYaw v := by
  funext i
  rw [timeMatrix_mulVec]
  unfold rotateYaw
  rw [timeMatrix_mulVec]
  by_cases h : i.1 = 3
  · simp [h]
  · simp [h]

/-- the Cholesky factor in other units of the components -/
theorem llt_diagonal {chol : Chol} (hchol : IsLlt chol) {n : ℕ} {P : Matrix (Fin n) (Fin n) ℝ}
    (hP : P.PosDef) {d : Fin n → ℝ} (hd : ∀ i, 0 < d i) :
    chol n (diagonal d * P * (diagonal d)ᵀ) = diagonal d * chol n P := by
  have hL := hchol n P hP
  have h : IsCholesky (diagonal d * chol n P) (diagonal d * P * (diagonal d)ᵀ) := by
    refine ⟨?_, ?_, ?_⟩
    · intro i j hij
      rw [diagonal_mul, hL.lower i j hij, mul_zero]
    · intro i
      rw [diagonal_mul]
      exact mul_pos (hd i) (hL.diag i)
    · rw [transpose_mul, Matrix.mul_assoc, ← Matrix.mul_assoc (chol n P), hL.factor, Matrix.mul_assoc]
  exact (hchol n _ h.posDef).unique h

theorem llt_retime {chol : Chol} (hchol : IsLlt chol) {n : ℕ} {P : Matrix (Fin n) (Fin n) ℝ}
    (hP : P.PosDef) {k : ℝ} (hk : 0 < k) :
    chol n (timeMatrix n k * P * (timeMatrix n k)ᵀ) = timeMatrix n k * chol n P := by
  refine llt_diagonal hchol hP fun i => ?_
  split
  · exact one_div_pos.2 hk
  · split
    · exact one_div_pos.2 (pow_pos hk 2)
    · exact one_pos

section
variable {S : Type} {n : ℕ} [MotionModel S n] [Retimable S] [RetimeLaws S n]

theorem sigmaLoop_retime (k : ℝ) (s : S) (L : Matrix (Fin n) (Fin n) ℝ) (r : ℝ) :
    sigmaLoop (retime k s) (timeMatrix n k * L) r = (sigmaLoop s L r).map (retime k) := by
  unfold sigmaLoop
  rw [List.map_flatMap]
  congr 1
  funext j
  have : r • (timeMatrix n k * L).col j = timeMatrix n k *ᵥ (r • L.col j) := by
    rw [mulVec_smul]; rfl
  simp only [this, RetimeLaws.ofVec_retime, RetimeLaws.add_retime, RetimeLaws.sub_retime,
    List.map_cons, List.map_nil]

theorem ukfPredict_retime {chol : Chol} (hchol : IsLlt chol) {k : ℝ} (hk : 0 < k) (s : S)
    {P : Matrix (Fin n) (Fin n) ℝ} (hP : P.PosDef) (dt α β κ : ℝ)
    (hn : ∀ x ∈ s :: sigmaLoop s (chol n P) √(α ^ 2 * (n + κ)),
      MotionModel.next (retime k x) (k * dt) = retime k (MotionModel.next x dt)) :
    ukfPredict chol (retime k s) (timeMatrix n k * P * (timeMatrix n k)ᵀ) (k * dt) α β κ =
      onResult (fun y => (retime k y.1, timeMatrix n k * y.2 * (timeMatrix n k)ᵀ))
        (ukfPredict chol s P dt α β κ) := by
  by_cases hN : 0 < α ^ 2 * (n + κ)
  · rw [ukfPredict_eq _ _ _ _ _ _ _ hN, ukfPredict_eq _ _ _ _ _ _ _ hN]
    have hr : predictedRows (retime k s) (timeMatrix n k * chol n P) √(α ^ 2 * (n + κ)) (k * dt) =
        (predictedRows s (chol n P) √(α ^ 2 * (n + κ)) dt).map (timeMatrix n k *ᵥ ·) := by
      unfold predictedRows
      rw [sigmaLoop_retime, ← List.map_cons, List.map_map, List.map_map]
      apply List.map_congr_left
      intro x hx
      simp only [Function.comp_apply]
      rw [hn x hx, RetimeLaws.toVec_retime, rotateYaw_retime]
    rw [llt_retime hchol hP hk, hr, computeUt_linear]
    generalize computeUt _ _ _ = r
    rcases r with ⟨x, C⟩ | e | w
    · simp only [onResult, RetimeLaws.ofVec_retime]
    · rfl
    · rfl
  · rw [ukfPredict_notReal _ _ _ _ _ _ _ (not_lt.1 hN),
      ukfPredict_notReal _ _ _ _ _ _ _ (not_lt.1 hN)]
    rfl

theorem fusePair_retime {k : ℝ} (hk : k ≠ 0) (t d : DynObj S (Matrix (Fin n) (Fin n) ℝ)) :
    fusePair (retime k t) (retime k d) = onResult (retime k) (fusePair t d) := by
  have hv : ∀ o : DynObj S (Matrix (Fin n) (Fin n) ℝ),
      rotateYaw (MotionModel.toVec (retime k o).state) =
        timeMatrix n k *ᵥ rotateYaw (MotionModel.toVec o.state) + 0 := fun o => by
    rw [add_zero]
    have : MotionModel.toVec (retime k o).state = _ := RetimeLaws.toVec_retime k o.state
    rw [this, rotateYaw_retime]
  rcases fusePair_affine (timeMatrix_inv hk) (t := t) (d := d) (t' := retime k t)
    (d' := retime k d) rfl rfl (hv t) (hv d) with ⟨w, h1, h2⟩ | ⟨m, C, h1, h2⟩
  · rw [h1, h2]; rfl
  · rw [h1, h2, add_zero, RetimeLaws.ofVec_retime]; rfl

end

theorem sigmaLoop_ctrv_retime {k : ℝ} (hk : k ≠ 0) {s : CtrvState} {L : CtrvCov} {r : ℝ}
    (h : RatesKept k r s.yawRate (L 4)) (dt : ℝ) : ∀ x ∈ s :: sigmaLoop s L r,
      MotionModel.next (retime k x) (k * dt) = retime k (MotionModel.next x dt) := by
  intro x hx
  refine CtrvState.next_retime hk ?_ dt
  rcases List.mem_cons.1 hx with rfl | hx
  · exact h.1
  · obtain ⟨j, -, hj⟩ := List.mem_flatMap.1 hx
    simp only [List.mem_cons, List.not_mem_nil, or_false] at hj
    rcases hj with rfl | rfl
    · exact (h.2 j).1
    · exact (h.2 j).2

theorem sigmaLoop_ctra_retime {k : ℝ} (hk : k ≠ 0) {s : CtraState} {L : CtraCov} {r : ℝ}
    (h : RatesKept k r s.yawRate (L 4)) (dt : ℝ) : ∀ x ∈ s :: sigmaLoop s L r,
      MotionModel.next (retime k x) (k * dt) = retime k (MotionModel.next x dt) := by
  intro x hx
  refine CtraState.next_retime hk ?_ dt
  rcases List.mem_cons.1 hx with rfl | hx
  · exact h.1
  · obtain ⟨j, -, hj⟩ := List.mem_flatMap.1 hx
    simp only [List.mem_cons, List.not_mem_nil, or_false] at hj
    rcases hj with rfl | rfl
    · exact (h.2 j).1
    · exact (h.2 j).2

theorem isHom_retime (k : ℝ) : IsHom (retime k : MotObj → MotObj) (k * ·) where
  uuid t := by rcases t with t | t <;> rfl
  timestamp t := by rcases t with t | t <;> rfl
  setTimestamp t x := by rcases t with t | t <;> rfl
  copyState t s := by rcases t with t | t <;> rcases s with s | s <;> rfl
  copyCovariance t s := by rcases t with t | t <;> rcases s with s | s <;> rfl

theorem ciVisitor_retime {k : ℝ} (hk : k ≠ 0) (t d : MotObj) :
    ciVisitor (retime k t) (retime k d) = onResult (retime k) (ciVisitor t d) := by
  rcases t with t | t <;> rcases d with d | d
  · show (match fusePair (retime k t) (retime k d) with
      | .ok f => .ok (.inl f)
      | .throw e => .throw e
      | .ub w => .ub w : Outcome MotObj) = onResult _ (match fusePair t d with
      | .ok f => .ok (.inl f)
      | .throw e => .throw e
      | .ub w => .ub w : Outcome MotObj)
    rw [fusePair_retime hk]
    cases fusePair t d <;> rfl
  · rfl
  · rfl
  · show (match fusePair (retime k t) (retime k d) with
      | .ok f => .ok (.inr f)
      | .throw e => .throw e
      | .ub w => .ub w : Outcome MotObj) = onResult _ (match fusePair t d with
      | .ok f => .ok (.inr f)
      | .throw e => .throw e
      | .ub w => .ub w : Outcome MotObj)
    rw [fusePair_retime hk]
    cases fusePair t d <;> rfl

theorem predict2_retime {chol : Chol} (hchol : IsLlt chol) {k : ℝ} (hk : 0 < k) {α β : ℝ} (κ time : ℝ)
    {o : MotObj} (ho : SameTurns chol α β k o) :
    predict2 (retime k o) (k * time) (unscentedTransform chol α β κ) (unscentedTransform chol α β κ) =
      onResult (retime k) (predict2 o time (unscentedTransform chol α β κ)
        (unscentedTransform chol α β κ)) := by
  rcases o with o | o
  · obtain ⟨hP, hR⟩ := ho
    show predict2 (.inl (retime k o)) _ _ _ = _
    simp only [predict2, propagate2, propagate, unscentedTransform]
    rw [show (retime k o).state = retime k o.state from rfl,
      show (retime k o).covariance = timeMatrix 5 k * o.covariance * (timeMatrix 5 k)ᵀ from rfl,
      show k * time - (retime k o).timestamp = k * (time - o.timestamp) from (mul_sub _ _ _).symm,
      ukfPredict_retime hchol hk o.state hP _ _ _ _
        (sigmaLoop_ctrv_retime hk.ne' (by exact_mod_cast hR) _)]
    rcases ukfPredict chol o.state o.covariance (time - o.timestamp) α κ β with ⟨s, C⟩ | e | w <;> rfl
  · obtain ⟨hP, hR⟩ := ho
    show predict2 (.inr (retime k o)) _ _ _ = _
    simp only [predict2, propagate2, propagate, unscentedTransform]
    rw [show (retime k o).state = retime k o.state from rfl,
      show (retime k o).covariance = timeMatrix 6 k * o.covariance * (timeMatrix 6 k)ᵀ from rfl,
      show k * time - (retime k o).timestamp = k * (time - o.timestamp) from (mul_sub _ _ _).symm,
      ukfPredict_retime hchol hk o.state hP _ _ _ _
        (sigmaLoop_ctra_retime hk.ne' (by exact_mod_cast hR) _)]
    rcases ukfPredict chol o.state o.covariance (time - o.timestamp) α κ β with ⟨s, C⟩ | e | w <;> rfl

/-- the pose of an object and its covariance have no time in them -/
theorem pose_retimed_cov (k : ℝ) :
    (∀ P : CtrvCov, CtrvCov.pose (timeMatrix 5 k * P * (timeMatrix 5 k)ᵀ) = P.pose) ∧
    (∀ P : CtraCov, CtraCov.pose (timeMatrix 6 k * P * (timeMatrix 6 k)ᵀ) = P.pose) := by
  constructor <;> intro P
  · have hT : (timeMatrix 5 k).submatrix ![0, 1, 3] ![0, 1, 3] = 1 := by
      ext i j; fin_cases i <;> fin_cases j <;> simp [timeMatrix, diagonal]
    rw [ctrvPose_submatrix, ctrvPose_submatrix, conj_block, hT, one_mul, transpose_one, mul_one]
    · decide
    · intro i j hj
      exact diagonal_apply_ne _ fun h => hj ⟨i, h⟩
  · have hT : (timeMatrix 6 k).submatrix ![0, 1, 3] ![0, 1, 3] = 1 := by
      ext i j; fin_cases i <;> fin_cases j <;> simp [timeMatrix, diagonal]
    rw [ctraPose_submatrix, ctraPose_submatrix, conj_block, hT, one_mul, transpose_one, mul_one]
    · decide
    · intro i j hj
      exact diagonal_apply_ne _ fun h => hj ⟨i, h⟩

/-! ## Units of length -/

theorem isHom_rescale (k : ℝ) : IsHom (rescale k : MotObj → MotObj) where
  uuid t := by rcases t with t | t <;> rfl
  timestamp t := by rcases t with t | t <;> rfl
  setTimestamp t x := by rcases t with t | t <;> rfl
  copyState t s := by rcases t with t | t <;> rcases s with s | s <;> rfl
  copyCovariance t s := by rcases t with t | t <;> rcases s with s | s <;> rfl

theorem ciVisitor_rescale {k : ℝ} (hk : k ≠ 0) (t d : MotObj) :
    ciVisitor (rescale k t) (rescale k d) = onResult (rescale k) (ciVisitor t d) := by
  rcases t with t | t <;> rcases d with d | d
  · show (match fusePair (rescale k t) (rescale k d) with
      | .ok f => .ok (.inl f)
      | .throw e => .throw e
      | .ub w => .ub w : Outcome MotObj) = onResult _ (match fusePair t d with
      | .ok f => .ok (.inl f)
      | .throw e => .throw e
      | .ub w => .ub w : Outcome MotObj)
    rw [fusePair_rescale hk]
    cases fusePair t d <;> rfl
  · rfl
  · rfl
  · show (match fusePair (rescale k t) (rescale k d) with
      | .ok f => .ok (.inr f)
      | .throw e => .throw e
      | .ub w => .ub w : Outcome MotObj) = onResult _ (match fusePair t d with
      | .ok f => .ok (.inr f)
      | .throw e => .throw e
      | .ub w => .ub w : Outcome MotObj)
    rw [fusePair_rescale hk]
    cases fusePair t d <;> rfl

theorem predict2_rescale {chol : Chol} (hchol : IsLlt chol) {k : ℝ} (hk : 0 < k) (α β κ time : ℝ)
    {o : MotObj} (ho : CovPosDef o) :
    predict2 (rescale k o) time (unscentedTransform chol α β κ) (unscentedTransform chol α β κ) =
      onResult (rescale k) (predict2 o time (unscentedTransform chol α β κ)
        (unscentedTransform chol α β κ)) := by
  rcases o with o | o
  · show predict2 (.inl (rescale k o)) _ _ _ = _
    simp only [predict2, propagate2, propagate, unscentedTransform]
    rw [show (rescale k o).state = rescale k o.state from rfl,
      show (rescale k o).covariance = unitMatrix 5 k * o.covariance * (unitMatrix 5 k)ᵀ from rfl,
      show (rescale k o).timestamp = o.timestamp from rfl,
      ukfPredict_rescale hchol hk o.state ho]
    rcases ukfPredict chol o.state o.covariance (time - o.timestamp) α κ β with ⟨s, C⟩ | e | w <;> rfl
  · show predict2 (.inr (rescale k o)) _ _ _ = _
    simp only [predict2, propagate2, propagate, unscentedTransform]
    rw [show (rescale k o).state = rescale k o.state from rfl,
      show (rescale k o).covariance = unitMatrix 6 k * o.covariance * (unitMatrix 6 k)ᵀ from rfl,
      show (rescale k o).timestamp = o.timestamp from rfl,
      ukfPredict_rescale hchol hk o.state ho]
    rcases ukfPredict chol o.state o.covariance (time - o.timestamp) α κ β with ⟨s, C⟩ | e | w <;> rfl

/-! ## Histories -/

theorem inTurn_hom {τ S C : Type} [TrackOps τ S C] {g : τ → τ} {clock : ℝ → ℝ}
    {step step' : ℝ → List τ → Act (Manager τ) AssociationMap}
    (h : ∀ time ds, Equivariant g (step time ds) (step' (clock time) (ds.map g)))
    (l : List (ℝ × List τ)) :
    Equivariant g (inTurn step l) (inTurn step' (l.map fun e => (clock e.1, e.2.map g))) := by
  induction l with
  | nil => intro m; rfl
  | cons e l ih =>
    exact Equivariant.andThen (h e.1 e.2) fun a => Equivariant.andThen ih fun _ _ => rfl

end Mot
