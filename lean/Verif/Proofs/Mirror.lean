import Verif.Spec.Mirror
import Verif.Proofs.FrameChange
import Verif.Proofs.Frames
/-!
# Lemmas: mirrored coordinates
-/

namespace Mot

open Matrix Spec

theorem mirrorSign_sq (i : ℕ) : mirrorSign i * mirrorSign i = 1 := by
  unfold mirrorSign
  split <;> norm_num

theorem mirrorSign_cases (i : ℕ) : mirrorSign i = 1 ∨ mirrorSign i = -1 := by
  unfold mirrorSign
  split
  · exact .inr rfl
  · exact .inl rfl

theorem mirrorMatrix_mul (n : ℕ) : mirrorMatrix n * mirrorMatrix n = 1 := by
  unfold mirrorMatrix
  rw [diagonal_mul_diagonal, ← diagonal_one]
  congr 1
  funext i
  exact mirrorSign_sq i

theorem mirrorMatrix_transpose (n : ℕ) : (mirrorMatrix n)ᵀ = mirrorMatrix n := diagonal_transpose _

theorem mirrorMatrix_mulVec {n : ℕ} (v : Fin n → ℝ) (i : Fin n) : (mirrorMatrix n *ᵥ v) i = mirrorSign i * v i :=
  mulVec_diagonal _ _ _

/-- what the generic proofs use of the mirror -/
class MirrorLaws (S : Type) (n : outParam ℕ) [MotionModel S n] [Mirrorable S] [Headed S] : Prop where
  rotate_mirror : ∀ s : S, MirrorSafe (heading s) → rotateYaw (MotionModel.toVec (mirror s)) =
    mirrorMatrix n *ᵥ rotateYaw (MotionModel.toVec s) + headingVec n (-circleExcess)
  ofVec_mirror : ∀ (φ : ℝ) (v : Fin n → ℝ), (MotionModel.ofVec (mirrorMatrix n *ᵥ v + headingVec n φ) : S) =
    steer φ (mirror (MotionModel.ofVec v))
  add_mirror : ∀ (s : S) (v : Fin n → ℝ), MotionModel.add (mirror s) (MotionModel.ofVec (mirrorMatrix n *ᵥ v)) =
    mirror (MotionModel.add s (MotionModel.ofVec v))
  sub_mirror : ∀ (s : S) (v : Fin n → ℝ), MotionModel.sub (mirror s) (MotionModel.ofVec (mirrorMatrix n *ᵥ v)) =
    mirror (MotionModel.sub s (MotionModel.ofVec v))
  add_neg : ∀ (s : S) (v : Fin n → ℝ), MotionModel.add s (MotionModel.ofVec (-v)) = MotionModel.sub s (MotionModel.ofVec v)
  sub_neg : ∀ (s : S) (v : Fin n → ℝ), MotionModel.sub s (MotionModel.ofVec (-v)) = MotionModel.add s (MotionModel.ofVec v)
  next_mirror : ∀ (s : S) (t : ℝ), MotionModel.next (mirror s) t = mirror (MotionModel.next s t)

theorem Angle.getAngle_mirror {a : Angle} (h : a.getAngle ≠ 0) :
    (Angle.ofRad (-a.getAngle)).getAngle = 2 * Real.pi - a.getAngle := by
  obtain ⟨h0, h1⟩ := a.getAngle_range
  have e : Angle.ofRad (-a.getAngle) = Angle.ofRad (2 * Real.pi - a.getAngle) :=
    Angle.ofRad_eq_iff.2 ⟨-1, by push_cast; ring⟩
  rw [e, Angle.getAngle_ofRad_of_range ⟨by linarith, by have := lt_of_le_of_ne h0 (Ne.symm h); linarith⟩]

theorem rotateHeading_mirror {a : Angle} (h : MirrorSafe a.getAngle) :
    rotateHeading (Angle.ofRad (-a.getAngle)).getAngle = -rotateHeading a.getAngle + -circleExcess := by
  have hc := yawCut_bounds.1
  have hpi := Real.pi_pos
  have hne : a.getAngle ≠ 0 := by rcases h with h | h <;> linarith [h.1]
  rw [Angle.getAngle_mirror hne]
  unfold rotateHeading circleExcess
  rcases h with h | h
  · rw [if_pos (by linarith), if_neg (by linarith)]
    ring
  · rw [if_neg (by linarith), if_pos h.1]
    ring

theorem Angle.sub_ofRad' (a : Angle) (x : ℝ) : a.sub (Angle.ofRad x) = Angle.ofRad (a.getAngle - x) :=
  Angle.ofRad_eq_iff.2 ((SameDir.refl _).sub (Angle.sameDir_getAngle x))

theorem Angle.add_neg_ofRad (a : Angle) (x : ℝ) : a.add (Angle.ofRad (-x)) = a.sub (Angle.ofRad x) := by
  rw [Angle.add_ofRad', Angle.sub_ofRad', sub_eq_add_neg]

theorem Angle.sub_neg_ofRad (a : Angle) (x : ℝ) : a.sub (Angle.ofRad (-x)) = a.add (Angle.ofRad x) := by
  rw [Angle.add_ofRad', Angle.sub_ofRad', sub_neg_eq_add]

private theorem neg_sub_left_neg (x y : ℝ) : -(x - y) = -x - -y := by ring

instance mirrorLawsCtrv : MirrorLaws CtrvState 5 where
  rotate_mirror s h := by
    funext i
    rw [Pi.add_apply, mirrorMatrix_mulVec]
    fin_cases i
    · show s.x = mirrorSign 0 * s.x + 0
      norm_num [mirrorSign]
    · show -s.y = mirrorSign 1 * s.y + 0
      norm_num [mirrorSign]
    · show s.v = mirrorSign 2 * s.v + 0
      norm_num [mirrorSign]
    · show rotateYaw (mirror s).toVec 3 = mirrorSign 3 * rotateYaw s.toVec 3 + -circleExcess
      rw [rotateYaw_heading _ _ rfl, rotateYaw_heading _ _ rfl]
      have : mirrorSign 3 = -1 := if_pos (by decide)
      rw [this, neg_one_mul]
      exact rotateHeading_mirror h
    · show -s.yawRate = mirrorSign 4 * s.yawRate + 0
      norm_num [mirrorSign]
  ofVec_mirror φ v := by
    have e := mirrorMatrix_mulVec v
    refine CtrvState.ext' ?_ ?_ ?_ ?_ ?_
    · show (mirrorMatrix 5 *ᵥ v) 0 + 0 = v 0
      rw [e]; norm_num [mirrorSign]
    · show (mirrorMatrix 5 *ᵥ v) 1 + 0 = -v 1
      rw [e]; norm_num [mirrorSign]
    · show (mirrorMatrix 5 *ᵥ v) 2 + 0 = v 2
      rw [e]; norm_num [mirrorSign]
    · show Angle.ofRad ((mirrorMatrix 5 *ᵥ v) 3 + φ) = Angle.ofRad ((Angle.ofRad (-(Angle.ofRad (v 3)).getAngle)).getAngle + φ)
      rw [e, Angle.ofRad_getAngle_add, Angle.ofRad_eq_iff]
      have : mirrorSign ((3 : Fin 5) : ℕ) * v 3 = -v 3 := by norm_num [mirrorSign]
      rw [this]
      exact ((Angle.sameDir_getAngle (v 3)).neg.symm).add (SameDir.refl φ)
    · show (mirrorMatrix 5 *ᵥ v) 4 + 0 = -v 4
      rw [e]; norm_num [mirrorSign]
  add_mirror s v := by
    have e := mirrorMatrix_mulVec v
    refine CtrvState.ext' ?_ ?_ ?_ ?_ ?_
    · show s.x + (mirrorMatrix 5 *ᵥ v) 0 = s.x + v 0
      rw [e]; norm_num [mirrorSign]
    · show -s.y + (mirrorMatrix 5 *ᵥ v) 1 = -(s.y + v 1)
      rw [e]; norm_num [mirrorSign]; ring
    · show s.v + (mirrorMatrix 5 *ᵥ v) 2 = s.v + v 2
      rw [e]; norm_num [mirrorSign]
    · show (Angle.ofRad (-s.yaw.getAngle)).add (Angle.ofRad ((mirrorMatrix 5 *ᵥ v) 3)) =
        Angle.ofRad (-(s.yaw.add (Angle.ofRad (v 3))).getAngle)
      have h3 : (mirrorMatrix 5 *ᵥ v) 3 = -v 3 := by rw [e]; norm_num [mirrorSign]
      rw [h3, Angle.add_ofRad, Angle.add_ofRad', Angle.ofRad_eq_iff]
      have := (Angle.sameDir_getAngle (s.yaw.getAngle + v 3)).neg.symm
      rwa [neg_add] at this
    · show -s.yawRate + (mirrorMatrix 5 *ᵥ v) 4 = -(s.yawRate + v 4)
      rw [e]; norm_num [mirrorSign]; ring
  sub_mirror s v := by
    have e := mirrorMatrix_mulVec v
    refine CtrvState.ext' ?_ ?_ ?_ ?_ ?_
    · show s.x - (mirrorMatrix 5 *ᵥ v) 0 = s.x - v 0
      rw [e]; norm_num [mirrorSign]
    · show -s.y - (mirrorMatrix 5 *ᵥ v) 1 = -(s.y - v 1)
      rw [e]; norm_num [mirrorSign]; ring
    · show s.v - (mirrorMatrix 5 *ᵥ v) 2 = s.v - v 2
      rw [e]; norm_num [mirrorSign]
    · show (Angle.ofRad (-s.yaw.getAngle)).sub (Angle.ofRad ((mirrorMatrix 5 *ᵥ v) 3)) =
        Angle.ofRad (-(s.yaw.sub (Angle.ofRad (v 3))).getAngle)
      have h3 : (mirrorMatrix 5 *ᵥ v) 3 = -v 3 := by rw [e]; norm_num [mirrorSign]
      rw [h3, Angle.sub_ofRad, Angle.sub_ofRad', Angle.ofRad_eq_iff]
      have := (Angle.sameDir_getAngle (s.yaw.getAngle - v 3)).neg.symm
      rwa [neg_sub_left_neg] at this
    · show -s.yawRate - (mirrorMatrix 5 *ᵥ v) 4 = -(s.yawRate - v 4)
      rw [e]; norm_num [mirrorSign]; ring
  add_neg s v := CtrvState.ext' (sub_eq_add_neg _ _).symm (sub_eq_add_neg _ _).symm (sub_eq_add_neg _ _).symm
    (Angle.add_neg_ofRad _ _) (sub_eq_add_neg _ _).symm
  sub_neg s v := CtrvState.ext' (sub_neg_eq_add _ _) (sub_neg_eq_add _ _) (sub_neg_eq_add _ _)
    (Angle.sub_neg_ofRad _ _) (sub_neg_eq_add _ _)
  next_mirror := CtrvState.next_mirror

instance mirrorLawsCtra : MirrorLaws CtraState 6 where
  rotate_mirror s h := by
    funext i
    rw [Pi.add_apply, mirrorMatrix_mulVec]
    fin_cases i
    · show s.x = mirrorSign 0 * s.x + 0
      norm_num [mirrorSign]
    · show -s.y = mirrorSign 1 * s.y + 0
      norm_num [mirrorSign]
    · show s.v = mirrorSign 2 * s.v + 0
      norm_num [mirrorSign]
    · show rotateYaw (mirror s).toVec 3 = mirrorSign 3 * rotateYaw s.toVec 3 + -circleExcess
      rw [rotateYaw_heading _ _ rfl, rotateYaw_heading _ _ rfl]
      have : mirrorSign 3 = -1 := if_pos (by decide)
      rw [this, neg_one_mul]
      exact rotateHeading_mirror h
    · show -s.yawRate = mirrorSign 4 * s.yawRate + 0
      norm_num [mirrorSign]
    · show s.a = mirrorSign 5 * s.a + 0
      norm_num [mirrorSign]
  ofVec_mirror φ v := by
    have e := mirrorMatrix_mulVec v
    refine CtraState.ext' ?_ ?_ ?_ ?_ ?_ ?_
    · show (mirrorMatrix 6 *ᵥ v) 0 + 0 = v 0
      rw [e]; norm_num [mirrorSign]
    · show (mirrorMatrix 6 *ᵥ v) 1 + 0 = -v 1
      rw [e]; norm_num [mirrorSign]
    · show (mirrorMatrix 6 *ᵥ v) 2 + 0 = v 2
      rw [e]; norm_num [mirrorSign]
    · show Angle.ofRad ((mirrorMatrix 6 *ᵥ v) 3 + φ) = Angle.ofRad ((Angle.ofRad (-(Angle.ofRad (v 3)).getAngle)).getAngle + φ)
      rw [e, Angle.ofRad_getAngle_add, Angle.ofRad_eq_iff]
      have : mirrorSign ((3 : Fin 6) : ℕ) * v 3 = -v 3 := by norm_num [mirrorSign]
      rw [this]
      exact ((Angle.sameDir_getAngle (v 3)).neg.symm).add (SameDir.refl φ)
    · show (mirrorMatrix 6 *ᵥ v) 4 + 0 = -v 4
      rw [e]; norm_num [mirrorSign]
    · show (mirrorMatrix 6 *ᵥ v) 5 + 0 = v 5
      rw [e]; norm_num [mirrorSign]
  add_mirror s v := by
    have e := mirrorMatrix_mulVec v
    refine CtraState.ext' ?_ ?_ ?_ ?_ ?_ ?_
    · show s.x + (mirrorMatrix 6 *ᵥ v) 0 = s.x + v 0
      rw [e]; norm_num [mirrorSign]
    · show -s.y + (mirrorMatrix 6 *ᵥ v) 1 = -(s.y + v 1)
      rw [e]; norm_num [mirrorSign]; ring
    · show s.v + (mirrorMatrix 6 *ᵥ v) 2 = s.v + v 2
      rw [e]; norm_num [mirrorSign]
    · show (Angle.ofRad (-s.yaw.getAngle)).add (Angle.ofRad ((mirrorMatrix 6 *ᵥ v) 3)) =
        Angle.ofRad (-(s.yaw.add (Angle.ofRad (v 3))).getAngle)
      have h3 : (mirrorMatrix 6 *ᵥ v) 3 = -v 3 := by rw [e]; norm_num [mirrorSign]
      rw [h3, Angle.add_ofRad, Angle.add_ofRad', Angle.ofRad_eq_iff]
      have := (Angle.sameDir_getAngle (s.yaw.getAngle + v 3)).neg.symm
      rwa [neg_add] at this
    · show -s.yawRate + (mirrorMatrix 6 *ᵥ v) 4 = -(s.yawRate + v 4)
      rw [e]; norm_num [mirrorSign]; ring
    · show s.a + (mirrorMatrix 6 *ᵥ v) 5 = s.a + v 5
      rw [e]; norm_num [mirrorSign]
  sub_mirror s v := by
    have e := mirrorMatrix_mulVec v
    refine CtraState.ext' ?_ ?_ ?_ ?_ ?_ ?_
    · show s.x - (mirrorMatrix 6 *ᵥ v) 0 = s.x - v 0
      rw [e]; norm_num [mirrorSign]
    · show -s.y - (mirrorMatrix 6 *ᵥ v) 1 = -(s.y - v 1)
      rw [e]; norm_num [mirrorSign]; ring
    · show s.v - (mirrorMatrix 6 *ᵥ v) 2 = s.v - v 2
      rw [e]; norm_num [mirrorSign]
    · show (Angle.ofRad (-s.yaw.getAngle)).sub (Angle.ofRad ((mirrorMatrix 6 *ᵥ v) 3)) =
        Angle.ofRad (-(s.yaw.sub (Angle.ofRad (v 3))).getAngle)
      have h3 : (mirrorMatrix 6 *ᵥ v) 3 = -v 3 := by rw [e]; norm_num [mirrorSign]
      rw [h3, Angle.sub_ofRad, Angle.sub_ofRad', Angle.ofRad_eq_iff]
      have := (Angle.sameDir_getAngle (s.yaw.getAngle - v 3)).neg.symm
      rwa [neg_sub_left_neg] at this
    · show -s.yawRate - (mirrorMatrix 6 *ᵥ v) 4 = -(s.yawRate - v 4)
      rw [e]; norm_num [mirrorSign]; ring
    · show s.a - (mirrorMatrix 6 *ᵥ v) 5 = s.a - v 5
      rw [e]; norm_num [mirrorSign]
  add_neg s v := CtraState.ext' (sub_eq_add_neg _ _).symm (sub_eq_add_neg _ _).symm (sub_eq_add_neg _ _).symm
    (Angle.add_neg_ofRad _ _) (sub_eq_add_neg _ _).symm (sub_eq_add_neg _ _).symm
  sub_neg s v := CtraState.ext' (sub_neg_eq_add _ _) (sub_neg_eq_add _ _) (sub_neg_eq_add _ _)
    (Angle.sub_neg_ofRad _ _) (sub_neg_eq_add _ _) (sub_neg_eq_add _ _)
  next_mirror := CtraState.next_mirror

/-- the order of the points with equal weights does not matter -/
theorem computeUt_perm {n : ℕ} (r₀ : Fin n → ℝ) {l l' : List (Fin n → ℝ)} (h : l.Perm l') (w₀ c₀ w : ℝ) {k : ℕ}
    (hk : l.length = k) :
    computeUt (r₀ :: l) (w₀ :: List.replicate k w) (c₀ :: List.replicate k w) =
      computeUt (r₀ :: l') (w₀ :: List.replicate k w) (c₀ :: List.replicate k w) := by
  rw [computeUt_cons _ _ _ _ _ hk, computeUt_cons _ _ _ _ _ (h.length_eq ▸ hk), h.sum_eq, (h.map _).sum_eq]

theorem llt_mirror {chol : Chol} (hchol : IsLlt chol) {n : ℕ} {P : Matrix (Fin n) (Fin n) ℝ} (hP : P.PosDef) :
    chol n (mirrorMatrix n * P * (mirrorMatrix n)ᵀ) = mirrorMatrix n * chol n P * mirrorMatrix n := by
  have hL := hchol n P hP
  have entry : ∀ i j, (mirrorMatrix n * chol n P * mirrorMatrix n) i j = mirrorSign i * chol n P i j * mirrorSign j := by
    intro i j
    unfold mirrorMatrix
    rw [mul_diagonal, diagonal_mul]
  have h : IsCholesky (mirrorMatrix n * chol n P * mirrorMatrix n) (mirrorMatrix n * P * (mirrorMatrix n)ᵀ) := by
    refine ⟨fun i j hij => ?_, fun i => ?_, ?_⟩
    · rw [entry, hL.lower i j hij]
      ring
    · rw [entry, mul_right_comm, mirrorSign_sq, one_mul]
      exact hL.diag i
    · rw [transpose_mul, transpose_mul, mirrorMatrix_transpose, Matrix.mul_assoc, ← Matrix.mul_assoc (mirrorMatrix n) (mirrorMatrix n),
        mirrorMatrix_mul, Matrix.one_mul, Matrix.mul_assoc, ← Matrix.mul_assoc (chol n P), hL.factor, ← Matrix.mul_assoc]
  exact (hchol n _ h.posDef).unique h

section
variable {S : Type} {n : ℕ} [MotionModel S n] [Mirrorable S] [Headed S] [MirrorLaws S n]

theorem sigmaLoop_mirror (s : S) (L : Matrix (Fin n) (Fin n) ℝ) (r : ℝ) :
    (sigmaLoop (mirror s) (mirrorMatrix n * L * mirrorMatrix n) r).Perm ((sigmaLoop s L r).map mirror) := by
  unfold sigmaLoop
  rw [List.map_flatMap]
  refine List.Perm.flatMap_left _ fun j _ => ?_
  have e : r • (mirrorMatrix n * L * mirrorMatrix n).col j = mirrorSign j • (mirrorMatrix n *ᵥ (r • L.col j)) := by
    funext i
    rw [Pi.smul_apply, Pi.smul_apply, mirrorMatrix_mulVec]
    show r • (mirrorMatrix n * L * mirrorMatrix n) i j = _
    unfold mirrorMatrix
    rw [mul_diagonal, diagonal_mul]
    show r * (mirrorSign i * L i j * mirrorSign j) = mirrorSign j * (mirrorSign i * (r * L i j))
    ring
  simp only [e, List.map_cons, List.map_nil]
  rcases mirrorSign_cases j with h | h
  · rw [h, one_smul, MirrorLaws.add_mirror, MirrorLaws.sub_mirror]
  · rw [h, neg_one_smul, MirrorLaws.add_neg, MirrorLaws.sub_neg, MirrorLaws.add_mirror, MirrorLaws.sub_mirror]
    exact List.Perm.swap _ _ _

theorem ukfPredict_mirror {chol : Chol} (hchol : IsLlt chol) (s : S) {P : Matrix (Fin n) (Fin n) ℝ} (hP : P.PosDef)
    (dt α β κ : ℝ)
    (hsafe : ∀ p ∈ s :: sigmaLoop s (chol n P) √(α ^ 2 * (n + κ)), MirrorSafe (heading (MotionModel.next p dt))) :
    ukfPredict chol (mirror s) (mirrorMatrix n * P * (mirrorMatrix n)ᵀ) dt α β κ =
      onResult (fun y => (steer (-circleExcess) (mirror y.1), mirrorMatrix n * y.2 * (mirrorMatrix n)ᵀ))
        (ukfPredict chol s P dt α β κ) := by
  by_cases hN : 0 < α ^ 2 * (n + κ)
  · rw [ukfPredict_eq _ _ _ _ _ _ _ hN, ukfPredict_eq _ _ _ _ _ _ _ hN]
    have hl := lambda_sum n α κ
    have hw := weight_total (n := n) (lam := generateLambda n α κ) (by rw [hl]; exact hN.ne')
    rw [hl] at hw
    rw [llt_mirror hchol hP]
    generalize √(α ^ 2 * (n + κ)) = r at *
    have row : ∀ p ∈ s :: sigmaLoop s (chol n P) r, rotateYaw (MotionModel.toVec (MotionModel.next (mirror p) dt)) =
        mirrorMatrix n *ᵥ rotateYaw (MotionModel.toVec (MotionModel.next p dt)) + headingVec n (-circleExcess) := fun p hp => by
      rw [MirrorLaws.next_mirror, MirrorLaws.rotate_mirror _ (hsafe p hp)]
    unfold predictedRows
    rw [List.map_cons, computeUt_perm _ ((sigmaLoop_mirror s (chol n P) r).map _) _ _ _ (by rw [List.length_map, sigmaLoop_length]),
      List.map_map]
    have hrows : (rotateYaw (MotionModel.toVec (MotionModel.next (mirror s) dt)) :: (sigmaLoop s (chol n P) r).map
        ((fun p => rotateYaw (MotionModel.toVec (MotionModel.next p dt))) ∘ mirror)) =
        ((((s :: sigmaLoop s (chol n P) r).map fun p => rotateYaw (MotionModel.toVec (MotionModel.next p dt))).map
          (mirrorMatrix n *ᵥ ·)).map (· + headingVec n (-circleExcess))) := by
      rw [List.map_map, List.map_map, List.map_cons]
      congr 1
      · exact row s (List.mem_cons_self ..)
      · exact List.map_congr_left fun p hp => row p (List.mem_cons_of_mem _ hp)
    rw [hrows, List.map_cons, List.map_cons, computeUt_shift _ _ _ _ _ _ (by
      rw [List.length_map, List.length_map, sigmaLoop_length]) (by push_cast; exact hw), ← List.map_cons, computeUt_linear]
    generalize computeUt _ _ _ = y
    rcases y with ⟨x, C⟩ | e | w
    · simp only [onResult, MirrorLaws.ofVec_mirror]
    · rfl
    · rfl
  · rw [ukfPredict_notReal _ _ _ _ _ _ _ (not_lt.1 hN), ukfPredict_notReal _ _ _ _ _ _ _ (not_lt.1 hN)]
    rfl

theorem fusePair_mirror (t d : DynObj S (Matrix (Fin n) (Fin n) ℝ)) (ht : MirrorSafe (heading t.state))
    (hd : MirrorSafe (heading d.state)) :
    fusePair (mirror t) (mirror d) =
      onResult (fun f => { mirror f with state := steer (-circleExcess) (mirror f.state) }) (fusePair t d) := by
  rcases fusePair_affine (mirrorMatrix_mul n) (t := t) (d := d) (t' := mirror t) (d' := mirror d) rfl rfl
    (MirrorLaws.rotate_mirror _ ht) (MirrorLaws.rotate_mirror _ hd) with ⟨w, h1, h2⟩ | ⟨m, C, h1, h2⟩
  · rw [h1, h2]; rfl
  · rw [h1, h2, MirrorLaws.ofVec_mirror]; rfl

end

/-- the mirror on poses -/
def mirrorPose : Matrix (Fin 3) (Fin 3) ℝ := !![1, 0, 0; 0, -1, 0; 0, 0, -1]

theorem mirrorPose_mul : mirrorPose * mirrorPose = 1 := by
  ext i j
  rw [mul_apply, Fin.sum_univ_three]
  fin_cases i <;> fin_cases j <;> simp [mirrorPose]

theorem pose_mirrored_cov :
    (∀ P : CtrvCov, CtrvCov.pose (mirrorMatrix 5 * P * (mirrorMatrix 5)ᵀ) = mirrorPose * P.pose * mirrorPoseᵀ) ∧
    (∀ P : CtraCov, CtraCov.pose (mirrorMatrix 6 * P * (mirrorMatrix 6)ᵀ) = mirrorPose * P.pose * mirrorPoseᵀ) := by
  constructor <;> intro P
  · have hT : (mirrorMatrix 5).submatrix ![0, 1, 3] ![0, 1, 3] = mirrorPose := by
      ext i j; fin_cases i <;> fin_cases j <;> simp [mirrorMatrix, mirrorSign, mirrorPose, diagonal]
    rw [ctrvPose_submatrix, ctrvPose_submatrix, conj_block, hT]
    · intro a b; fin_cases a <;> fin_cases b <;> simp
    · intro i j hj
      have : j ≠ (![0, 1, 3] : Fin 3 → Fin 5) i := fun e => hj ⟨i, e.symm⟩
      exact diagonal_apply_ne _ this.symm
  · have hT : (mirrorMatrix 6).submatrix ![0, 1, 3] ![0, 1, 3] = mirrorPose := by
      ext i j; fin_cases i <;> fin_cases j <;> simp [mirrorMatrix, mirrorSign, mirrorPose, diagonal]
    rw [ctraPose_submatrix, ctraPose_submatrix, conj_block, hT]
    · intro a b; fin_cases a <;> fin_cases b <;> simp
    · intro i j hj
      have : j ≠ (![0, 1, 3] : Fin 3 → Fin 6) i := fun e => hj ⟨i, e.symm⟩
      exact diagonal_apply_ne _ this.symm

/-- headings in the mirror -/
theorem Angle.mirror_sub {a b : Angle} (h : a.getAngle = 0 ↔ b.getAngle = 0) :
    (Angle.ofRad (-a.getAngle)).getAngle - (Angle.ofRad (-b.getAngle)).getAngle = -(a.getAngle - b.getAngle) := by
  by_cases ha : a.getAngle = 0
  · rw [ha, h.1 ha, sub_self, sub_self, neg_zero]
  · rw [Angle.getAngle_mirror ha, Angle.getAngle_mirror (mt h.2 ha)]
    ring

end Mot
