import Verif.Spec.Frames
import Verif.Proofs.Ukf
import Verif.Proofs.Maps
import Verif.Proofs.Clustering
/-!
# Lemmas about changes of the coordinate frame
-/

set_option linter.unusedSectionVars false

namespace Mot

open Matrix Spec

/-! ## Shifts -/

/-- the vector added to a state vector by a shift -/
def shiftVec (n : ℕ) (p q : ℝ) : Fin n → ℝ := fun i =>
  if i.1 = 0 then p else if i.1 = 1 then q else 0

/-- what the generic proofs use of shifts -/
class ShiftLaws (S : Type) (n : outParam ℕ) [MotionModel S n] [Shiftable S] : Prop where
  toVec_shift : ∀ (p q : ℝ) (s : S), MotionModel.toVec (shift p q s) =
    MotionModel.toVec s + shiftVec n p q
  ofVec_shift : ∀ (p q : ℝ) (v : Fin n → ℝ), (MotionModel.ofVec (v + shiftVec n p q) : S) =
    shift p q (MotionModel.ofVec v)
  add_shift : ∀ (p q : ℝ) (s d : S), MotionModel.add (shift p q s) d =
    shift p q (MotionModel.add s d)
  sub_shift : ∀ (p q : ℝ) (s d : S), MotionModel.sub (shift p q s) d =
    shift p q (MotionModel.sub s d)
  next_shift : ∀ (p q : ℝ) (s : S) (t : ℝ), MotionModel.next (shift p q s) t =
    shift p q (MotionModel.next s t)

theorem CtrvState.next_shift (p q : ℝ) (s : CtrvState) (t : ℝ) :
    (shift p q s).next t = shift p q (s.next t) := by
  by_cases h : unitsEq s.yawRate 0
  · refine CtrvState.ext' ?_ ?_ rfl rfl rfl
    · show ((shift p q s).next t).x = (s.next t).x + p
      simp only [CtrvState.next, if_pos h, shift]; ring
    · show ((shift p q s).next t).y = (s.next t).y + q
      simp only [CtrvState.next, if_pos h, shift]; ring
  · refine CtrvState.ext' ?_ ?_ rfl rfl rfl
    · show ((shift p q s).next t).x = (s.next t).x + p
      simp only [CtrvState.next, if_neg h, shift]; ring
    · show ((shift p q s).next t).y = (s.next t).y + q
      simp only [CtrvState.next, if_neg h, shift]; ring

theorem CtraState.next_shift (p q : ℝ) (s : CtraState) (t : ℝ) :
    (shift p q s).next t = shift p q (s.next t) := by
  refine CtraState.ext' ?_ ?_ rfl rfl rfl rfl
  · exact add_right_comm _ _ _
  · exact add_right_comm _ _ _

instance shiftLawsCtrv : ShiftLaws CtrvState 5 where
  toVec_shift p q s := by
    funext i
    fin_cases i
    · rfl
    · rfl
    · exact (add_zero _).symm
    · exact (add_zero _).symm
    · exact (add_zero _).symm
  ofVec_shift p q v := by
    refine CtrvState.ext' rfl rfl (add_zero (v 2)) ?_ (add_zero (v 4))
    exact congrArg Angle.ofRad (add_zero (v 3))
  add_shift p q s d := CtrvState.ext' (add_right_comm _ _ _) (add_right_comm _ _ _) rfl rfl rfl
  sub_shift p q s d :=
    CtrvState.ext' (add_sub_right_comm _ _ _) (add_sub_right_comm _ _ _) rfl rfl rfl
  next_shift := CtrvState.next_shift

instance shiftLawsCtra : ShiftLaws CtraState 6 where
  toVec_shift p q s := by
    funext i
    fin_cases i
    · rfl
    · rfl
    · exact (add_zero _).symm
    · exact (add_zero _).symm
    · exact (add_zero _).symm
    · exact (add_zero _).symm
  ofVec_shift p q v := by
    refine CtraState.ext' rfl rfl (add_zero (v 2)) ?_ (add_zero (v 4)) (add_zero (v 5))
    exact congrArg Angle.ofRad (add_zero (v 3))
  add_shift p q s d := CtraState.ext' (add_right_comm _ _ _) (add_right_comm _ _ _) rfl rfl rfl rfl
  sub_shift p q s d :=
    CtraState.ext' (add_sub_right_comm _ _ _) (add_sub_right_comm _ _ _) rfl rfl rfl rfl
  next_shift := CtraState.next_shift

theorem rotateYaw_shift {n : ℕ} (p q : ℝ) (v : Fin n → ℝ) :
    rotateYaw (v + shiftVec n p q) = rotateYaw v + shiftVec n p q := by
  funext i
  by_cases h : i.1 = 3
  · have h0 : shiftVec n p q i = 0 := by simp [shiftVec, h]
    simp only [rotateYaw, Pi.add_apply, h0, add_zero]
  · simp only [rotateYaw, Pi.add_apply, h, false_and, if_false]

section
variable {S : Type} {n : ℕ} [MotionModel S n] [Shiftable S] [ShiftLaws S n]

theorem sigmaLoop_shift (p q : ℝ) (s : S) (L : Matrix (Fin n) (Fin n) ℝ) (r : ℝ) :
    sigmaLoop (shift p q s) L r = (sigmaLoop s L r).map (shift p q) := by
  unfold sigmaLoop
  rw [List.map_flatMap]
  congr 1
  funext j
  simp only [ShiftLaws.add_shift, ShiftLaws.sub_shift, List.map_cons, List.map_nil]

theorem predictedRows_shift (p q : ℝ) (s : S) (L : Matrix (Fin n) (Fin n) ℝ) (r dt : ℝ) :
    predictedRows (shift p q s) L r dt =
      (predictedRows s L r dt).map (· + shiftVec n p q) := by
  unfold predictedRows
  rw [sigmaLoop_shift]
  simp only [List.map_cons, List.map_map]
  have h : ∀ x : S, rotateYaw (MotionModel.toVec (MotionModel.next (shift p q x) dt)) =
      rotateYaw (MotionModel.toVec (MotionModel.next x dt)) + shiftVec n p q := fun x => by
    rw [ShiftLaws.next_shift, ShiftLaws.toVec_shift, rotateYaw_shift]
  rw [h]
  congr 1
  apply List.map_congr_left
  intro x _
  exact h x

theorem sum_map_add {V : Type} [AddCommGroup V] [Module ℝ V] (v : V) (l : List V) :
    (l.map (· + v)).sum = l.sum + (l.length : ℝ) • v := by
  induction l with
  | nil => simp
  | cons x l ih =>
    rw [List.map_cons, List.sum_cons, ih, List.sum_cons, List.length_cons, Nat.cast_add,
      add_smul, Nat.cast_one, one_smul]
    abel

/-- shifting all points shifts the mean and keeps the covariance, for weights with sum 1 -/
theorem computeUt_shift (v r₀ : Fin n → ℝ) (l : List (Fin n → ℝ)) (w₀ c₀ w : ℝ) {k : ℕ}
    (hk : l.length = k) (hw : w₀ + k * w = 1) :
    computeUt ((r₀ :: l).map (· + v)) (w₀ :: List.replicate k w) (c₀ :: List.replicate k w) =
      onResult (fun y => (y.1 + v, y.2))
        (computeUt (r₀ :: l) (w₀ :: List.replicate k w) (c₀ :: List.replicate k w)) := by
  rw [List.map_cons, computeUt_cons _ _ _ _ _ hk,
    computeUt_cons _ _ _ _ _ (by rw [List.length_map]; exact hk)]
  have hx : w₀ • (r₀ + v) + w • (l.map (· + v)).sum = w₀ • r₀ + w • l.sum + v := by
    rw [sum_map_add, hk]
    have : v = (w₀ + k * w) • v := by rw [hw, one_smul]
    conv_rhs => rw [this]
    rw [add_smul, smul_add, smul_add, smul_smul, mul_comm w]
    abel
  rw [hx]
  simp only [onResult, List.map_map, Function.comp_def, add_sub_add_right_eq_sub]

theorem ukfPredict_shift (chol : Chol) (p q : ℝ) (s : S) (P : Matrix (Fin n) (Fin n) ℝ)
    (dt α β κ : ℝ) : ukfPredict chol (shift p q s) P dt α β κ =
      onResult (fun y => (shift p q y.1, y.2)) (ukfPredict chol s P dt α β κ) := by
  by_cases hN : 0 < α ^ 2 * (n + κ)
  · rw [ukfPredict_eq _ _ _ _ _ _ _ hN, ukfPredict_eq _ _ _ _ _ _ _ hN, predictedRows_shift]
    have hl := lambda_sum n α κ
    have hw := weight_total (n := n) (lam := generateLambda n α κ) (by rw [hl]; exact hN.ne')
    rw [hl] at hw
    unfold predictedRows
    rw [List.map_cons, computeUt_shift _ _ _ _ _ _ (by
      rw [List.length_map, sigmaLoop_length]) (by push_cast; exact hw)]
    generalize computeUt _ _ _ = r
    rcases r with ⟨x, C⟩ | e | w
    · simp only [onResult, ShiftLaws.ofVec_shift]
    · rfl
    · rfl
  · rw [ukfPredict_notReal _ _ _ _ _ _ _ (not_lt.1 hN),
      ukfPredict_notReal _ _ _ _ _ _ _ (not_lt.1 hN)]
    rfl

theorem fusePair_shift (p q : ℝ) (t d : DynObj S (Matrix (Fin n) (Fin n) ℝ)) :
    fusePair (shift p q t) (shift p q d) = onResult (shift p q) (fusePair t d) := by
  have ht : (shift p q t).covariance = t.covariance := rfl
  have hd : (shift p q d).covariance = d.covariance := rfl
  unfold fusePair
  rw [ht, hd]
  rcases inverse? t.covariance with _ | A
  · rfl
  rcases inverse? d.covariance with _ | B
  · rfl
  simp only
  rcases generateWeight A B with _ | w
  · rfl
  simp only
  have hts : MotionModel.toVec (shift p q t).state = MotionModel.toVec t.state + shiftVec n p q :=
    ShiftLaws.toVec_shift p q t.state
  have hds : MotionModel.toVec (shift p q d).state = MotionModel.toVec d.state + shiftVec n p q :=
    ShiftLaws.toVec_shift p q d.state
  rw [hts, hds]
  unfold covIntersection
  simp only [rotateYaw_shift]
  split
  · rename_i hm
    split at hm
    · cases hm
    · rename_i hu
      rw [if_neg hu]; rfl
  · rename_i m C hm
    split at hm
    · rename_i hu
      rw [if_pos hu]
      cases hm
      simp only [onResult]
      congr 1
      have hv : (w • A + (1 - w) • B)⁻¹ *ᵥ (w • A *ᵥ (rotateYaw (MotionModel.toVec t.state) +
          shiftVec n p q) + (1 - w) • B *ᵥ (rotateYaw (MotionModel.toVec d.state) +
          shiftVec n p q)) = (w • A + (1 - w) • B)⁻¹ *ᵥ (w • A *ᵥ rotateYaw
          (MotionModel.toVec t.state) + (1 - w) • B *ᵥ rotateYaw (MotionModel.toVec d.state)) +
          shiftVec n p q := by
        have e : w • A *ᵥ (rotateYaw (MotionModel.toVec t.state) + shiftVec n p q) +
            (1 - w) • B *ᵥ (rotateYaw (MotionModel.toVec d.state) + shiftVec n p q) =
            (w • A *ᵥ rotateYaw (MotionModel.toVec t.state) +
              (1 - w) • B *ᵥ rotateYaw (MotionModel.toVec d.state)) +
            (w • A + (1 - w) • B) *ᵥ shiftVec n p q := by
          rw [mulVec_add, mulVec_add, add_mulVec, smul_mulVec, smul_mulVec]
          module
        rw [e, mulVec_add, mulVec_mulVec, nonsing_inv_mul _ hu, one_mulVec]
      rw [hv, ShiftLaws.ofVec_shift]
      rfl
    · cases hm

end

theorem ciVisitor_shift (p q : ℝ) (t d : MotObj) :
    ciVisitor (shift p q t) (shift p q d) = onResult (shift p q) (ciVisitor t d) := by
  rcases t with t | t <;> rcases d with d | d
  · show (match fusePair (shift p q t) (shift p q d) with
      | .ok f => .ok (.inl f)
      | .throw e => .throw e
      | .ub w => .ub w : Outcome MotObj) = onResult _ (match fusePair t d with
      | .ok f => .ok (.inl f)
      | .throw e => .throw e
      | .ub w => .ub w : Outcome MotObj)
    rw [fusePair_shift]
    cases fusePair t d <;> rfl
  · rfl
  · rfl
  · show (match fusePair (shift p q t) (shift p q d) with
      | .ok f => .ok (.inr f)
      | .throw e => .throw e
      | .ub w => .ub w : Outcome MotObj) = onResult _ (match fusePair t d with
      | .ok f => .ok (.inr f)
      | .throw e => .throw e
      | .ub w => .ub w : Outcome MotObj)
    rw [fusePair_shift]
    cases fusePair t d <;> rfl

/-! ## The cycle under a change of all objects -/

/-- a change of objects that the free functions of dynamic_object.hpp do not notice, except that
clocks may show another time -/
structure IsHom {τ S C : Type} [TrackOps τ S C] (g : τ → τ) (clock : ℝ → ℝ := id) : Prop where
  uuid : ∀ t, TrackOps.uuid (g t) = TrackOps.uuid t
  timestamp : ∀ t, TrackOps.timestamp (g t) = clock (TrackOps.timestamp t)
  setTimestamp : ∀ t x, TrackOps.setTimestamp (g t) (clock x) = g (TrackOps.setTimestamp t x)
  copyState : ∀ t s, TrackOps.copyState (g t) (g s) =
    (g (TrackOps.copyState t s).1, (TrackOps.copyState t s).2)
  copyCovariance : ∀ t s, TrackOps.copyCovariance (g t) (g s) =
    (g (TrackOps.copyCovariance t s).1, (TrackOps.copyCovariance t s).2)

theorem isHom_shift_dynObj {S C : Type} [Shiftable S] (p q : ℝ) :
    IsHom (shift p q : DynObj S C → DynObj S C) :=
  ⟨fun _ => rfl, fun _ => rfl, fun _ _ => rfl, fun _ _ => rfl, fun _ _ => rfl⟩

theorem isHom_shift_obj2 {S₁ C₁ S₂ C₂ : Type} [Shiftable S₁] [Shiftable S₂] (p q : ℝ) :
    IsHom (shift p q : Obj2 S₁ C₁ S₂ C₂ → Obj2 S₁ C₁ S₂ C₂) where
  uuid t := by rcases t with t | t <;> rfl
  timestamp t := by rcases t with t | t <;> rfl
  setTimestamp t x := by rcases t with t | t <;> rfl
  copyState t s := by rcases t with t | t <;> rcases s with s | s <;> rfl
  copyCovariance t s := by rcases t with t | t <;> rcases s with s | s <;> rfl

section
variable {τ S C : Type} [TrackOps τ S C] {g : τ → τ} {clock : ℝ → ℝ}

theorem scoreRow_hom {α : Type} (hg : IsHom g clock) {metric : τ → τ → Option α}
    (hm : ∀ t d, metric (g t) (g d) = metric t d) (t : τ) (sc : ScoreMapOf α) (d : τ) :
    scoreRow metric (g t) sc (g d) = scoreRow metric t sc d := by
  unfold scoreRow
  rw [hm, hg.uuid, hg.uuid]

theorem score_hom {α : Type} (hg : IsHom g clock) {metric : τ → τ → Option α}
    (hm : ∀ t d, metric (g t) (g d) = metric t d) (ts ds : List τ) :
    scoreTracksAndDetections (ts.map g) (ds.map g) metric =
      scoreTracksAndDetections ts ds metric := by
  unfold scoreTracksAndDetections
  rw [List.foldl_map]
  congr 1
  funext sc t
  rw [List.foldl_map]
  congr 1
  funext sc d
  exact scoreRow_hom hg hm t sc d

theorem fuseDetections_hom (hg : IsHom g clock) {v : τ → τ → Outcome τ}
    (hv : ∀ t d, v (g t) (g d) = onResult g (v t d)) (us : List Uuid) (t : τ) (ds acc : List τ) :
    fuseDetections v us (g t) (ds.map g) (acc.map g) =
      onResult (List.map g) (fuseDetections v us t ds acc) := by
  induction ds generalizing acc with
  | nil => rfl
  | cons d ds ih =>
    simp only [List.map_cons, fuseDetections, hg.uuid, hv]
    split
    · rcases v t d with f | e | w
      · simp only [onResult]
        have := ih (acc ++ [f])
        rw [List.map_append] at this
        exact this
      · rfl
      · rfl
    · exact ih acc

theorem fuseTracks_hom (hg : IsHom g clock) {v : τ → τ → Outcome τ}
    (hv : ∀ t d, v (g t) (g d) = onResult g (v t d)) (u : Uuid) (us : List Uuid)
    (ds ts acc : List τ) :
    fuseTracks v u us (ds.map g) (ts.map g) (acc.map g) =
      onResult (List.map g) (fuseTracks v u us ds ts acc) := by
  induction ts generalizing acc with
  | nil => rfl
  | cons t ts ih =>
    simp only [List.map_cons, fuseTracks, hg.uuid, fuseDetections_hom hg hv]
    split
    · rcases fuseDetections v us t ds acc with f | e | w
      · exact ih f
      · rfl
      · rfl
    · exact ih acc

theorem fuseAssociations_hom (hg : IsHom g clock) {v : τ → τ → Outcome τ}
    (hv : ∀ t d, v (g t) (g d) = onResult g (v t d)) (a : AssociationMap) (ts ds : List τ) :
    fuseAssociations a (ts.map g) (ds.map g) v =
      onResult (List.map g) (fuseAssociations a ts ds v) := by
  unfold fuseAssociations
  suffices h : ∀ (l : List (Uuid × List Uuid)) (acc : List τ),
      fuseLoop v (ts.map g) (ds.map g) l (acc.map g) =
        onResult (List.map g) (fuseLoop v ts ds l acc) from h a.entries []
  intro l
  induction l with
  | nil => intro acc; rfl
  | cons e l ih =>
    intro acc
    obtain ⟨u, us⟩ := e
    simp only [fuseLoop, fuseTracks_hom hg hv]
    rcases fuseTracks v u us ds ts acc with f | e | w
    · exact ih f
    · rfl
    · rfl

/-- the same change of all tracks before and after a call -/
def Equivariant {α : Type} (g : τ → τ) (x y : Act (Manager τ) α) : Prop :=
  ∀ m, y (onTracks g m) = (onTracks g (x m).1, (x m).2)

theorem Equivariant.andThen {α β : Type} {x y : Act (Manager τ) α} {f k : α → Act (Manager τ) β}
    (h : Equivariant g x y) (hf : ∀ a, Equivariant g (f a) (k a)) :
    Equivariant g (Act.andThen x f) (Act.andThen y k) := by
  intro m
  simp only [Act.andThen, h m]
  rcases x m with ⟨m', a | e | w⟩
  · exact hf a m'
  · rfl
  · rfl

theorem Equivariant.forEach {α β : Type} {x : α → Act (Manager τ) Unit}
    {y : β → Act (Manager τ) Unit} (c : α → β) (h : ∀ a, Equivariant g (x a) (y (c a)))
    (l : List α) : Equivariant g (Act.forEach x l) (Act.forEach y (l.map c)) := by
  induction l with
  | nil => intro m; rfl
  | cons a l ih =>
    intro m
    simp only [Act.forEach, List.map_cons, h a m]
    rcases x a m with ⟨m', b | e | w⟩
    · exact ih m'
    · rfl
    · rfl

theorem onTracks_find? (m : Manager τ) (u : Uuid) :
    (onTracks g m).tracks.find? u = (m.tracks.find? u).map g :=
  AList.find?_map_vals (fun _ => g)

omit [TrackOps τ S C] in
theorem UMap.ext_entries {K V : Type} {m m' : UMap K V} (h : m.entries = m'.entries) : m = m' := by
  cases m; cases m'; cases h; rfl

theorem onTracks_replace (m : Manager τ) (u : Uuid) (t : τ) :
    (onTracks g m).tracks.replace u (g t) = (onTracks g { m with tracks := m.tracks.replace u t }).tracks := by
  apply UMap.ext_entries
  simp only [UMap.replace, onTracks, List.map_map]
  apply List.map_congr_left
  intro e _
  by_cases h : e.1 = u <;> simp [h]

theorem onTracks_erase (m : Manager τ) (u : Uuid) :
    (onTracks g m).tracks.erase u = (onTracks g { m with tracks := m.tracks.erase u }).tracks := by
  apply UMap.ext_entries
  simp only [UMap.erase, onTracks, List.filter_map]
  rfl

theorem onTracks_set (m : Manager τ) (u : Uuid) (t : τ) :
    (onTracks g m).tracks.set u (g t) = (onTracks g { m with tracks := m.tracks.set u t }).tracks := by
  by_cases h : m.tracks.find? u = none
  · have h' : (onTracks g m).tracks.find? u = none := by rw [onTracks_find?, h]; rfl
    apply UMap.ext_entries
    simp only [UMap.set, h, h', dif_pos]
    rfl
  · have h' : (onTracks g m).tracks.find? u ≠ none := by
      rw [onTracks_find?]; simpa using h
    simp only [UMap.set, h, h', dif_neg, not_false_eq_true]
    exact onTracks_replace m u t

theorem withTrack_hom (u : Uuid) {f k : τ → τ × Outcome Unit}
    (h : ∀ t, k (g t) = (g (f t).1, (f t).2)) :
    Equivariant g (Manager.withTrack u f) (Manager.withTrack u k) := by
  intro m
  simp only [Manager.withTrack, onTracks_find?]
  rcases m.tracks.find? u with _ | t
  · rfl
  · simp only [Option.map_some, h, onTracks_replace]
    rfl

theorem updateTrackFrom_hom (hg : IsHom g clock) (u : Uuid) (t : τ) :
    Equivariant g (Manager.updateTrackFrom u t) (Manager.updateTrackFrom u (g t)) := by
  unfold Manager.updateTrackFrom
  refine Equivariant.andThen (withTrack_hom u fun x => ?_) fun _ =>
    Equivariant.andThen (withTrack_hom u fun x => hg.copyState x t) fun _ =>
      withTrack_hom u fun x => hg.copyCovariance x t
  rw [hg.timestamp, hg.setTimestamp]

theorem storeFused_hom (hg : IsHom g clock) (l : List τ) :
    Equivariant g (storeFused l) (storeFused (l.map g)) := by
  unfold storeFused
  refine Equivariant.forEach g (fun t => ?_) l
  rw [hg.uuid]
  exact updateTrackFrom_hom hg _ t

theorem sweepEntry_hom (e : Uuid × BitVec 64) :
    Equivariant g (Manager.sweepEntry e) (Manager.sweepEntry (τ := τ) e) := by
  intro m
  simp only [Manager.sweepEntry]
  have h1 : (onTracks g m).removal = m.removal := rfl
  have h2 : (onTracks g m).promo = m.promo := rfl
  have h3 : (onTracks g m).statuses = m.statuses := rfl
  have h4 : (onTracks g m).occ = m.occ := rfl
  rw [h1, h2, h3, h4]
  split
  · rw [onTracks_erase]; rfl
  · split
    · rcases m.statuses.find? e.1 with _ | s <;> rfl
    · rfl

theorem updateTrackLists_hom (a : AssociationMap) :
    Equivariant g (Manager.updateTrackLists a) (Manager.updateTrackLists (τ := τ) a) := by
  intro m
  have := Equivariant.forEach (g := g) id (fun e => sweepEntry_hom e)
    (m.countAssociations a).occ.entries (m.countAssociations a)
  rw [List.map_id] at this
  exact this

theorem addTentativeTrack_hom (hg : IsHom g clock) (t : τ) :
    Equivariant g (Manager.addTentativeTrack t) (Manager.addTentativeTrack (g t)) := by
  intro m
  simp only [Manager.addTentativeTrack, hg.uuid]
  have hc : (onTracks g m).tracks.count (TrackOps.uuid t) = m.tracks.count (TrackOps.uuid t) := by
    unfold UMap.count
    rw [onTracks_find?]
    cases m.tracks.find? (TrackOps.uuid t) <;> rfl
  rw [hc]
  split
  · rfl
  · rw [onTracks_set]; rfl

theorem getAllTracks_hom (m : Manager τ) :
    (onTracks g m).getAllTracks = m.getAllTracks.map g := by
  simp only [Manager.getAllTracks, onTracks, List.map_map]
  rfl

/-- one cycle on given tracks commutes with a change of all objects -/
theorem cycleOn_hom (hg : IsHom g clock) (solve : Solver) {metric : τ → τ → Option FP}
    (hm : ∀ t d, metric (g t) (g d) = metric t d) (gate : FP → Bool) {v : τ → τ → Outcome τ}
    (hv : ∀ t d, v (g t) (g d) = onResult g (v t d)) (ts ds : List τ) :
    Equivariant g (cycleOn solve metric gate v ts ds)
      (cycleOn solve metric gate v (ts.map g) (ds.map g)) := by
  intro m
  have ha : associateStep solve metric gate (ts.map g) (ds.map g) =
      associateStep solve metric gate ts ds := by
    unfold associateStep
    rw [score_hom hg hm]
  simp only [cycleOn, ha]
  rcases associateStep solve metric gate ts ds with a | e | w
  · simp only [fuseAssociations_hom hg hv]
    rcases fuseAssociations a ts ds v with l | e | w
    · exact Equivariant.andThen (storeFused_hom hg l) (fun _ =>
        Equivariant.andThen (updateTrackLists_hom a) fun _ _ => rfl) m
    · rfl
    · rfl
  · rfl
  · rfl

/-- one cycle commutes with a change of all objects -/
theorem cycle_hom (hg : IsHom g clock) (solve : Solver) {metric : τ → τ → Option FP}
    (hm : ∀ t d, metric (g t) (g d) = metric t d) (gate : FP → Bool) {v : τ → τ → Outcome τ}
    (hv : ∀ t d, v (g t) (g d) = onResult g (v t d)) (ds : List τ) :
    Equivariant g (cycle solve metric gate v ds) (cycle solve metric gate v (ds.map g)) := by
  intro m
  unfold cycle
  rw [getAllTracks_hom]
  exact cycleOn_hom hg solve hm gate hv _ ds m

theorem addUnassociated_hom (hg : IsHom g clock) {make : τ → τ} (hk : ∀ t, make (g t) = g (make t))
    (a : AssociationMap) (ds : List τ) :
    Equivariant g (addUnassociated make a ds) (addUnassociated make a (ds.map g)) := by
  unfold addUnassociated
  have : (ds.map g).filter (fun d => !(HasAssociation.new a).detection d) =
      (ds.filter fun d => !(HasAssociation.new a).detection d).map g := by
    rw [List.filter_map]
    congr 1
    apply List.filter_congr
    intro d _
    simp only [Function.comp_apply, HasAssociation.detection, hg.uuid]
  rw [this]
  refine Equivariant.forEach g (fun t => ?_) _
  rw [hk]
  exact addTentativeTrack_hom hg _

omit [TrackOps τ S C] in
theorem mapM'_hom {f f' : τ → Outcome τ} {l : List τ} (h : ∀ o ∈ l, f' (g o) = onResult g (f o)) :
    Outcome.mapM' f' (l.map g) = onResult (List.map g) (Outcome.mapM' f l) := by
  induction l with
  | nil => rfl
  | cons o l ih =>
    simp only [List.map_cons, Outcome.mapM', h o List.mem_cons_self,
      ih fun o ho => h o (List.mem_cons_of_mem _ ho)]
    rcases f o with x | e | w
    · simp only [onResult]
      rcases Outcome.mapM' f l with x | e | w <;> rfl
    · rfl
    · rfl

/-- one period commutes with a change of all objects -/
theorem period_hom (hg : IsHom g clock) (solve : Solver) {metric : τ → τ → Option FP}
    (hm : ∀ t d, metric (g t) (g d) = metric t d) (gate : FP → Bool) {v : τ → τ → Outcome τ}
    (hv : ∀ t d, v (g t) (g d) = onResult g (v t d)) {make : τ → τ}
    (hk : ∀ t, make (g t) = g (make t)) {align align' : τ → Outcome τ} {ds : List τ} {m : Manager τ}
    (hds : ∀ o ∈ ds, align' (g o) = onResult g (align o))
    (hts : ∀ o ∈ m.getAllTracks, align' (g o) = onResult g (align o)) :
    period solve metric gate v make align' (ds.map g) (onTracks g m) =
      (onTracks g (period solve metric gate v make align ds m).1,
        (period solve metric gate v make align ds m).2) := by
  unfold period
  rw [getAllTracks_hom, mapM'_hom hds, mapM'_hom hts]
  rcases Outcome.mapM' align ds with ds' | e | w
  · simp only [onResult]
    rcases Outcome.mapM' align m.getAllTracks with ts' | e | w
    · exact Equivariant.andThen (cycleOn_hom hg solve hm gate hv ts' ds') (fun a =>
        Equivariant.andThen (addUnassociated_hom hg hk a ds') fun _ _ => rfl) m
    · rfl
    · rfl
  · rfl
  · rfl

end

/-! ## Clusters -/

/-- what clustering uses of shifts -/
class ShiftReads (δ : Type) [Clusterable δ] [Shiftable δ] : Prop where
  uuid_shift : ∀ (p q : ℝ) (d : δ), ClusterableOf.uuid (shift p q d) = ClusterableOf.uuid d
  addTo_shift : ∀ (p q a b : ℝ) (P : Point) (d : δ), ClusterableOf.addTo (shift a b P) (shift p q d) =
    shift (a + p) (b + q) (ClusterableOf.addTo P d)
  makePoint_shift : ∀ (p q : ℝ) (d : δ), ClusterableOf.makePoint (shift p q d) =
    shift p q (ClusterableOf.makePoint d)
  sqDist_shift : ∀ (p q : ℝ) (P : Point) (d : δ), Clusterable.sqDist (shift p q P) (shift p q d) =
    Clusterable.sqDist P d

theorem Point.ext' {p q : Point} (h1 : p.x = q.x) (h2 : p.y = q.y) (h3 : p.v = q.v)
    (h4 : p.yaw = q.yaw) (h5 : p.yawRate = q.yawRate) : p = q := by
  cases p; cases q; cases h1; cases h2; cases h3; cases h4; cases h5; rfl

instance shiftReadsCtrv {C : Type} : ShiftReads (DynObj CtrvState C) where
  uuid_shift _ _ _ := rfl
  addTo_shift p q a b P d := Point.ext' (add_add_add_comm _ _ _ _) (add_add_add_comm _ _ _ _)
    rfl rfl rfl
  makePoint_shift _ _ _ := rfl
  sqDist_shift p q P d := by
    show (P.x + p - (d.state.x + p)) ^ 2 + (P.y + q - (d.state.y + q)) ^ 2 + _ + _ + _ =
      (P.x - d.state.x) ^ 2 + (P.y - d.state.y) ^ 2 + _ + _ + _
    rw [add_sub_add_right_eq_sub, add_sub_add_right_eq_sub]
    rfl

instance shiftReadsCtra {C : Type} : ShiftReads (DynObj CtraState C) where
  uuid_shift _ _ _ := rfl
  addTo_shift p q a b P d := Point.ext' (add_add_add_comm _ _ _ _) (add_add_add_comm _ _ _ _)
    rfl rfl rfl
  makePoint_shift _ _ _ := rfl
  sqDist_shift p q P d := by
    show (P.x + p - (d.state.x + p)) ^ 2 + (P.y + q - (d.state.y + q)) ^ 2 + _ + _ + _ =
      (P.x - d.state.x) ^ 2 + (P.y - d.state.y) ^ 2 + _ + _ + _
    rw [add_sub_add_right_eq_sub, add_sub_add_right_eq_sub]
    rfl

instance shiftReadsVariant {C C' : Type} : ShiftReads (Obj2 CtrvState C CtraState C') where
  uuid_shift _ _ d := by rcases d with d | d <;> rfl
  addTo_shift p q a b P d := by
    rcases d with d | d
    · exact ShiftReads.addTo_shift p q a b P d
    · exact ShiftReads.addTo_shift p q a b P d
  makePoint_shift _ _ d := by rcases d with d | d <;> rfl
  sqDist_shift p q P d := by
    rcases d with d | d
    · exact ShiftReads.sqDist_shift p q P d
    · exact ShiftReads.sqDist_shift p q P d

section
variable {δ : Type} [Clusterable δ] [Shiftable δ] [ShiftReads δ]

/-- `c'` is `c` shifted, with a sum of `k` detections -/
def ShiftedBy (p q : ℝ) (k : ℕ) (c c' : Cluster δ) : Prop :=
  c'.stateSum = shift (k * p) (k * q) c.stateSum ∧
  c'.detections.entries = c.detections.entries.map fun e => (e.1, shift p q e.2)

theorem ShiftedBy.find? {p q : ℝ} {k : ℕ} {c c' : Cluster δ} (h : ShiftedBy p q k c c') (u : Uuid) :
    c'.detections.find? u = (c.detections.find? u).map (shift p q) := by
  unfold UMap.find?
  rw [h.2]
  exact AList.find?_map_vals (fun _ => shift p q)

theorem ShiftedBy.add {p q : ℝ} {k : ℕ} {c c' : Cluster δ} (h : ShiftedBy p q k c c') (d : δ) :
    ShiftedBy p q (k + 1) (c.add d) (c'.add (shift p q d)) := by
  constructor
  · show ClusterableOf.addTo c'.stateSum (shift p q d) = _
    rw [h.1, ShiftReads.addTo_shift]
    congr 1
    · push_cast; ring
    · push_cast; ring
  · show (c'.detections.emplace (ClusterableOf.uuid (shift p q d)) (shift p q d)).entries =
      (c.detections.emplace (ClusterableOf.uuid d) d).entries.map _
    rw [ShiftReads.uuid_shift]
    by_cases hn : c.detections.find? (ClusterableOf.uuid d) = none
    · rw [UMap.emplace_entries hn, UMap.emplace_entries (by rw [h.find?, hn]; rfl), h.2]
      rfl
    · rw [UMap.emplace_of_some hn, UMap.emplace_of_some (by rw [h.find?]; simpa using hn), h.2]

theorem ShiftedBy.foldl {p q : ℝ} {k : ℕ} {c c' : Cluster δ} (h : ShiftedBy p q k c c')
    (l : List δ) : ShiftedBy p q (k + l.length) (l.foldl ClusterOf.add c)
      ((l.map (shift p q)).foldl ClusterOf.add c') := by
  induction l generalizing k c c' with
  | nil => exact h
  | cons d l ih =>
    have := ih (h.add d)
    rw [add_assoc, add_comm 1] at this
    exact this

theorem ShiftedBy.new (p q : ℝ) : ShiftedBy p q 0 (ClusterOf.new : Cluster δ) ClusterOf.new := by
  refine ⟨Point.ext' ?_ ?_ rfl rfl rfl, rfl⟩
  · show (0 : ℝ) = 0 + ((0 : ℕ) : ℝ) * p
    simp
  · show (0 : ℝ) = 0 + ((0 : ℕ) : ℝ) * q
    simp

theorem ShiftedBy.centroid {p q : ℝ} {k : ℕ} {c c' : Cluster δ} (h : ShiftedBy p q k c c')
    (hk : c.detections.entries.length = k) : c'.centroid = onResult (shift p q) c.centroid := by
  unfold ClusterOf.centroid
  rw [h.2]
  by_cases he : c.detections.entries = []
  · rw [he]; rfl
  · have h0 : (k : ℝ) ≠ 0 := by
      rw [← hk]
      exact_mod_cast fun h => he (List.length_eq_zero_iff.1 h)
    rw [if_neg (by simpa using he), if_neg (by simpa using he), List.length_map, h.1, hk]
    show Outcome.ok _ = Outcome.ok _
    congr 1
    refine Point.ext' ?_ ?_ rfl rfl rfl
    · show (c.stateSum.x + k * p) / k = c.stateSum.x / k + p
      field_simp
    · show (c.stateSum.y + k * q) / k = c.stateSum.y / k + q
      field_simp

theorem clusterDetections_shift (p q : ℝ) {within within' : Point → δ → Bool}
    (hw : ∀ P d, within' (shift p q P) (shift p q d) = within P d) (ds : List δ) :
    List.Forall₂ (fun c c' => c'.detections.entries =
        c.detections.entries.map (fun e => (e.1, shift p q e.2)))
      (clusterDetections within ds) (clusterDetections within' (ds.map (shift p q))) := by
  induction ds using cluster_induction within with
  | h0 => simp [clusterDetections_nil]
  | h1 l o ih =>
    rw [List.map_append, List.map_singleton, clusterDetections_concat, clusterDetections_concat,
      List.filter_map, List.filter_map]
    have e1 : within' (ClusterableOf.makePoint (shift p q o)) ∘ shift p q =
        within (ClusterableOf.makePoint o) := by
      funext d
      rw [Function.comp_apply, ShiftReads.makePoint_shift, hw]
    have e2 : (fun d => !within' (ClusterableOf.makePoint (shift p q o)) d) ∘ shift p q =
        fun d => !within (ClusterableOf.makePoint o) d := by
      funext d
      rw [Function.comp_apply, ShiftReads.makePoint_shift, hw]
    rw [e1, e2]
    exact List.Forall₂.cons (((ShiftedBy.new p q).add o).foldl _).2 ih

theorem clusterDetections_shift_centroid [Readable δ] [ClusterLaws δ] (p q : ℝ)
    {within within' : Point → δ → Bool}
    (hw : ∀ P d, within' (shift p q P) (shift p q d) = within P d) (ds : List δ)
    (hn : (ds.map Identified.id).Nodup) :
    List.Forall₂ (fun c c' => c'.centroid = onResult (shift p q) c.centroid)
      (clusterDetections within ds) (clusterDetections within' (ds.map (shift p q))) := by
  induction ds using cluster_induction within with
  | h0 => simp [clusterDetections_nil]
  | h1 l o ih =>
    have hold := (ClusterOf.first_holds within l o hn).1
    rw [List.map_append, List.map_singleton, clusterDetections_concat, clusterDetections_concat,
      List.filter_map, List.filter_map]
    have e1 : within' (ClusterableOf.makePoint (shift p q o)) ∘ shift p q =
        within (ClusterableOf.makePoint o) := by
      funext d
      rw [Function.comp_apply, ShiftReads.makePoint_shift, hw]
    have e2 : (fun d => !within' (ClusterableOf.makePoint (shift p q o)) d) ∘ shift p q =
        fun d => !within (ClusterableOf.makePoint o) d := by
      funext d
      rw [Function.comp_apply, ShiftReads.makePoint_shift, hw]
    rw [e1, e2]
    refine List.Forall₂.cons ((((ShiftedBy.new p q).add o).foldl _).centroid ?_) (ih (nodup_rest hn))
    rw [hold.length, List.length_append, List.length_reverse, List.length_singleton]
    omega

end

end Mot
