import Verif.Checks.TestStates
import Verif.Proofs.Ukf
import Verif.Proofs.FrameChange
/-!
# Interval evaluation of the prediction, for the checks

Enclosures of CTRV states, of their prediction over one second, and of weighted means and
covariances, with proofs that they enclose the values of the model.
-/

namespace Mot.Checks

open Real

/-- enclosure of a CTRV state; `yaw` encloses the value of `get_angle` -/
structure CtrvIvl where
  x : Ivl
  y : Ivl
  v : Ivl
  yaw : Ivl
  w : Ivl

namespace CtrvIvl

/-- the state lies in the enclosure -/
def Has (I : CtrvIvl) (s : CtrvState) : Prop :=
  I.x.Has s.x ∧ I.y.Has s.y ∧ I.v.Has s.v ∧ I.yaw.Has s.yaw.getAngle ∧ I.w.Has s.yawRate

/-- the enclosures of the five variables -/
def toVec (I : CtrvIvl) : Fin 5 → Ivl := ![I.x, I.y, I.v, I.yaw, I.w]

theorem Has.toVec {I : CtrvIvl} {s : CtrvState} (h : I.Has s) (i : Fin 5) :
    (I.toVec i).Has (s.toVec i) := by
  obtain ⟨h1, h2, h3, h4, h5⟩ := h
  fin_cases i
  exacts [h1, h2, h3, h4, h5]

end CtrvIvl

/-- headings in `[0, 3]`: nothing wraps -/
def head (I : Ivl) : Bool := decide (0 ≤ I.lo) && decide (I.hi ≤ 3)

theorem head_range {I : Ivl} {a : ℝ} (h : I.Has a) (hh : head I = true) : 0 ≤ a ∧ a ≤ 3 := by
  simp only [head, Bool.and_eq_true, decide_eq_true_eq] at hh
  have h1 : (0 : ℝ) ≤ I.lo := by exact_mod_cast hh.1
  have h2 : (I.hi : ℝ) ≤ 3 := by exact_mod_cast hh.2
  exact ⟨h1.trans h.1, h.2.trans h2⟩

theorem getAngle_head {I : Ivl} {a : ℝ} (h : I.Has a) (hh : head I = true) :
    (Angle.ofRad a).getAngle = a := by
  have := head_range h hh
  exact getAngle_lit this.1 (by linarith)

theorem head_mid {I : Ivl} (hh : head I = true) (hw : I.lo ≤ I.hi) : |I.mid| ≤ 12 := by
  simp only [head, Bool.and_eq_true, decide_eq_true_eq] at hh
  rw [abs_le, Ivl.mid]
  constructor <;> linarith [hh.1, hh.2]

theorem Ivl.Has.le {I : Ivl} {a : ℝ} (h : I.Has a) : I.lo ≤ I.hi := by
  have := h.1.trans h.2
  exact_mod_cast this

theorem Angle_sub_ofRad' (a : Angle) (x : ℝ) : a.sub (Angle.ofRad x) = Angle.ofRad (a.getAngle - x) :=
  Angle.ofRad_eq_iff.2 ((SameDir.refl _).sub (Angle.sameDir_getAngle x))

namespace CtrvIvl

/-- `operator+` with a vector -/
def addVec (I : CtrvIvl) (d : Fin 5 → Ivl) : CtrvIvl :=
  ⟨I.x.add (d 0), I.y.add (d 1), I.v.add (d 2), I.yaw.add (d 3), I.w.add (d 4)⟩

/-- `operator-` with a vector -/
def subVec (I : CtrvIvl) (d : Fin 5 → Ivl) : CtrvIvl :=
  ⟨I.x.sub (d 0), I.y.sub (d 1), I.v.sub (d 2), I.yaw.sub (d 3), I.w.sub (d 4)⟩

theorem Has.addVec {I : CtrvIvl} {s : CtrvState} (h : I.Has s) {d : Fin 5 → Ivl} {v : Fin 5 → ℝ}
    (hd : ∀ i, (d i).Has (v i)) (hh : head (I.addVec d).yaw = true) :
    (I.addVec d).Has (s.add (.ofVec v)) := by
  obtain ⟨h1, h2, h3, h4, h5⟩ := h
  refine ⟨h1.add (hd 0), h2.add (hd 1), h3.add (hd 2), ?_, h5.add (hd 4)⟩
  show ((I.addVec d).yaw).Has (s.yaw.add (Angle.ofRad (v 3))).getAngle
  rw [Angle.add_ofRad', getAngle_head (h4.add (hd 3)) hh]
  exact h4.add (hd 3)

theorem Has.subVec {I : CtrvIvl} {s : CtrvState} (h : I.Has s) {d : Fin 5 → Ivl} {v : Fin 5 → ℝ}
    (hd : ∀ i, (d i).Has (v i)) (hh : head (I.subVec d).yaw = true) :
    (I.subVec d).Has (s.sub (.ofVec v)) := by
  obtain ⟨h1, h2, h3, h4, h5⟩ := h
  refine ⟨h1.sub (hd 0), h2.sub (hd 1), h3.sub (hd 2), ?_, h5.sub (hd 4)⟩
  show ((I.subVec d).yaw).Has (s.yaw.sub (Angle.ofRad (v 3))).getAngle
  rw [Angle_sub_ofRad', getAngle_head (h4.sub (hd 3)) hh]
  exact h4.sub (hd 3)

/-- prediction over one second, for yaw rates of at least 0.1 -/
def next (I : CtrvIvl) : CtrvIvl :=
  let b := (I.yaw.add I.w).out
  let q := (I.v.mul I.w.inv).out
  ⟨(I.x.add (q.mul (b.sin.out.sub I.yaw.sin.out))).out,
   (I.y.sub (q.mul (b.cos.out.sub I.yaw.cos.out))).out, I.v, b, I.w⟩

/-- what `next` needs -/
def nextOk (I : CtrvIvl) : Bool := decide (1 / 10 ≤ I.w.lo) && head I.yaw && head I.next.yaw

theorem Has.next {I : CtrvIvl} {s : CtrvState} (h : I.Has s) (hk : I.nextOk = true) :
    I.next.Has (s.next 1) := by
  obtain ⟨h1, h2, h3, h4, h5⟩ := h
  simp only [nextOk, Bool.and_eq_true, decide_eq_true_eq] at hk
  obtain ⟨⟨hw, ha⟩, hb⟩ := hk
  have hw' : (1 / 10 : ℝ) ≤ I.w.lo := by
    have : ((1 / 10 : ℚ) : ℝ) ≤ I.w.lo := by exact_mod_cast hw
    push_cast at this
    exact this
  have hne : ¬ unitsEq s.yawRate 0 := by
    rw [unitsEq_zero_iff, not_lt]
    have hd : dblMin ≤ 1 / 10 := by
      unfold dblMin
      refine one_div_le_one_div_of_le (by norm_num) (le_trans (b := (2 : ℝ) ^ 4) (by norm_num) ?_)
      exact pow_le_pow_right₀ (by norm_num) (by norm_num)
    exact (hd.trans (hw'.trans h5.1)).trans (le_abs_self _)
  have hB : I.next.yaw.Has (s.yaw.getAngle + s.yawRate * 1) := by
    rw [mul_one]
    exact (h4.add h5).out
  have hq : ((I.v.mul I.w.inv).out).Has (s.v / s.yawRate) := (h3.div h5 (by linarith)).out
  have sb := (hB.sin (head_mid hb hB.le)).out
  have cb := (hB.cos (head_mid hb hB.le)).out
  have sa := (h4.sin (head_mid ha h4.le)).out
  have ca := (h4.cos (head_mid ha h4.le)).out
  simp only [CtrvState.next, if_neg hne, mul_one (_ * (_ - _))]
  refine ⟨(h1.add (hq.mul (sb.sub sa))).out, (h2.sub (hq.mul (cb.sub ca))).out, h3, ?_, h5⟩
  show I.next.yaw.Has (s.yaw.add (Angle.ofRad (s.yawRate * 1))).getAngle
  rw [Angle.add_ofRad', getAngle_head hB hb]
  exact hB

/-- inclusion -/
def sub? (I J : CtrvIvl) : Bool :=
  I.x.sub? J.x && I.y.sub? J.y && I.v.sub? J.v && I.yaw.sub? J.yaw && I.w.sub? J.w

theorem Has.mono {I J : CtrvIvl} {s : CtrvState} (h : I.Has s) (hs : I.sub? J = true) : J.Has s := by
  simp only [sub?, Bool.and_eq_true] at hs
  obtain ⟨⟨⟨⟨a, b⟩, c⟩, d⟩, e⟩ := hs
  obtain ⟨h1, h2, h3, h4, h5⟩ := h
  exact ⟨h1.mono a, h2.mono b, h3.mono c, h4.mono d, h5.mono e⟩

end CtrvIvl

/-- the displacement of the `j`-th pair of sigma points -/
def colIvl (r : Ivl) (L : Fin 5 → Fin 5 → Ivl) (j : Fin 5) : Fin 5 → Ivl := fun i => (r.mul (L i j)).out

/-- one pair of sigma points and its prediction lie in the given enclosures -/
def pairOk (I : CtrvIvl) (r : Ivl) (L : Fin 5 → Fin 5 → Ivl) (j : Fin 5) (J : CtrvIvl × CtrvIvl) : Bool :=
  let p := I.addVec (colIvl r L j)
  let q := I.subVec (colIvl r L j)
  head p.yaw && head q.yaw && p.nextOk && q.nextOk && p.next.sub? J.1 && q.next.sub? J.2 &&
    head J.1.yaw && head J.2.yaw

/-- enclosures of a list of points -/
abbrev RowsHave {n : ℕ} (R : List (Fin n → Ivl)) (rows : List (Fin n → ℝ)) : Prop :=
  List.Forall₂ (fun I v => ∀ i, (I i).Has (v i)) R rows

theorem rotateYaw_head {I : CtrvIvl} {s : CtrvState} (h : I.Has s) (hh : head I.yaw = true) :
    rotateYaw s.toVec = s.toVec := by
  funext i
  unfold rotateYaw
  rw [if_neg]
  rintro ⟨hi, hg⟩
  obtain rfl : i = 3 := Fin.ext hi
  have : s.toVec 3 = s.yaw.getAngle := rfl
  have h3 := (head_range h.2.2.2.1 hh).2
  rw [this, gt_iff_lt, yawCut] at hg
  norm_num at hg
  linarith

/-- the rows computed by the prediction -/
theorem predictedRows_has {I I' : CtrvIvl} {s : CtrvState} (hI : I.Has s) {r : Ivl} {ρ : ℝ}
    (hr : r.Has ρ) {L : Fin 5 → Fin 5 → Ivl} {M : Matrix (Fin 5) (Fin 5) ℝ}
    (hL : ∀ i j, (L i j).Has (M i j)) {J : Fin 5 → CtrvIvl × CtrvIvl}
    (h0 : (I.nextOk && I.next.sub? I' && head I'.yaw) = true) (hJ : ∀ j, pairOk I r L j (J j) = true) :
    RowsHave (I'.toVec :: (List.finRange 5).flatMap fun j => [(J j).1.toVec, (J j).2.toVec])
      (predictedRows s M ρ 1) := by
  simp only [Bool.and_eq_true] at h0
  obtain ⟨⟨a, b⟩, c⟩ := h0
  have hn := (hI.next a).mono b
  unfold predictedRows sigmaLoop
  rw [List.map_cons, List.map_flatMap]
  have e0 : rotateYaw (MotionModel.toVec (MotionModel.next s 1)) = (s.next 1).toVec := rotateYaw_head hn c
  rw [e0]
  refine .cons (fun i => hn.toVec i) ?_
  generalize List.finRange 5 = l
  induction l with
  | nil => exact .nil
  | cons j l ih =>
    have hj := hJ j
    simp only [pairOk, Bool.and_eq_true] at hj
    obtain ⟨⟨⟨⟨⟨⟨⟨k1, k2⟩, k3⟩, k4⟩, k5⟩, k6⟩, k7⟩, k8⟩ := hj
    have hd : ∀ i, (colIvl r L j i).Has ((ρ • M.col j) i) := fun i => (hr.mul (hL i j)).out
    have hp := ((hI.addVec hd k1).next k3).mono k5
    have hq := ((hI.subVec hd k2).next k4).mono k6
    rw [List.flatMap_cons, List.flatMap_cons]
    refine .cons ?_ (.cons ?_ ih)
    · intro i
      have e : rotateYaw (MotionModel.toVec (MotionModel.next
          (MotionModel.add s (MotionModel.ofVec (ρ • M.col j) : CtrvState)) 1)) =
          ((s.add (.ofVec (ρ • M.col j))).next 1).toVec := rotateYaw_head hp k7
      simp only [e]
      exact hp.toVec i
    · intro i
      have e : rotateYaw (MotionModel.toVec (MotionModel.next
          (MotionModel.sub s (MotionModel.ofVec (ρ • M.col j) : CtrvState)) 1)) =
          ((s.sub (.ofVec (ρ • M.col j))).next 1).toVec := rotateYaw_head hq k8
      simp only [e]
      exact hq.toVec i

/-- weighted sum -/
def wsum : List ℚ → List Ivl → Ivl
  | w :: ws, I :: Is => ((Ivl.pt w).mul I).add (wsum ws Is)
  | _, _ => Ivl.pt 0

theorem mean_has {n : ℕ} {R : List (Fin n → Ivl)} {rows : List (Fin n → ℝ)} (h : RowsHave R rows)
    (ws : List ℚ) (i : Fin n) :
    (wsum ws (R.map (· i))).Has ((List.zipWith (fun (w : ℝ) p => w • p) (ws.map (↑)) rows).sum i) := by
  induction h generalizing ws with
  | nil => cases ws <;> simpa [wsum] using Ivl.has_num (x := 0) (q := 0) (by norm_num)
  | cons h _ ih =>
    cases ws with
    | nil => simpa [wsum] using Ivl.has_num (x := 0) (q := 0) (by norm_num)
    | cons w ws =>
      simp only [List.map_cons, wsum, List.zipWith_cons_cons, List.sum_cons, Pi.add_apply,
        Pi.smul_apply, smul_eq_mul]
      exact ((Ivl.has_pt w).mul (h i)).add (ih ws)

theorem cov_has {n : ℕ} {R : List (Fin n → Ivl)} {rows : List (Fin n → ℝ)} (h : RowsHave R rows)
    {X : Fin n → Ivl} {x : Fin n → ℝ} (hx : ∀ i, (X i).Has (x i)) (ws : List ℚ) (i j : Fin n) :
    (wsum ws (R.map fun I => ((I i).sub (X i)).mul ((I j).sub (X j)))).Has
      ((List.zipWith (fun (w : ℝ) p => Matrix.vecMulVec p (w • p)) (ws.map (↑))
        (List.zipWith (fun p q => p - q) rows (stackVector x rows.length))).sum i j) := by
  induction h generalizing ws with
  | nil => cases ws <;> simpa [wsum, stackVector] using Ivl.has_num (x := 0) (q := 0) (by norm_num)
  | cons h _ ih =>
    cases ws with
    | nil => simpa [wsum, stackVector] using Ivl.has_num (x := 0) (q := 0) (by norm_num)
    | cons w ws =>
      simp only [List.map_cons, wsum, List.length_cons, stackVector, List.replicate_succ,
        List.zipWith_cons_cons, List.sum_cons, Matrix.add_apply, Matrix.vecMulVec_apply,
        Pi.smul_apply, Pi.sub_apply, smul_eq_mul]
      refine Ivl.Has.add ?_ (ih ws)
      have := (Ivl.has_pt w).mul (((h i).sub (hx i)).mul ((h j).sub (hx j)))
      rwa [mul_left_comm] at this

end Mot.Checks
