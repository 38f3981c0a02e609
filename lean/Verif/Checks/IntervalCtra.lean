import Verif.Checks.IntervalUkf
/-!
# Interval evaluation of the prediction of CTRA states, for the checks

As `IntervalUkf.lean`.
-/

namespace Mot.Checks

open Real

/-- enclosure of a CTRA state; `yaw` encloses the value of `get_angle` -/
structure CtraIvl where
  x : Ivl
  y : Ivl
  v : Ivl
  yaw : Ivl
  w : Ivl
  a : Ivl

namespace CtraIvl

/-- the state lies in the enclosure -/
def Has (I : CtraIvl) (s : CtraState) : Prop :=
  I.x.Has s.x ∧ I.y.Has s.y ∧ I.v.Has s.v ∧ I.yaw.Has s.yaw.getAngle ∧ I.w.Has s.yawRate ∧ I.a.Has s.a

/-- the enclosures of the six variables -/
def toVec (I : CtraIvl) : Fin 6 → Ivl := ![I.x, I.y, I.v, I.yaw, I.w, I.a]

theorem Has.toVec {I : CtraIvl} {s : CtraState} (h : I.Has s) (i : Fin 6) :
    (I.toVec i).Has (s.toVec i) := by
  obtain ⟨h1, h2, h3, h4, h5, h6⟩ := h
  fin_cases i
  exacts [h1, h2, h3, h4, h5, h6]

/-- `operator+` with a vector -/
def addVec (I : CtraIvl) (d : Fin 6 → Ivl) : CtraIvl :=
  ⟨I.x.add (d 0), I.y.add (d 1), I.v.add (d 2), I.yaw.add (d 3), I.w.add (d 4), I.a.add (d 5)⟩

/-- `operator-` with a vector -/
def subVec (I : CtraIvl) (d : Fin 6 → Ivl) : CtraIvl :=
  ⟨I.x.sub (d 0), I.y.sub (d 1), I.v.sub (d 2), I.yaw.sub (d 3), I.w.sub (d 4), I.a.sub (d 5)⟩

theorem Has.addVec {I : CtraIvl} {s : CtraState} (h : I.Has s) {d : Fin 6 → Ivl} {v : Fin 6 → ℝ}
    (hd : ∀ i, (d i).Has (v i)) (hh : head (I.addVec d).yaw = true) :
    (I.addVec d).Has (s.add (.ofVec v)) := by
  obtain ⟨h1, h2, h3, h4, h5, h6⟩ := h
  refine ⟨h1.add (hd 0), h2.add (hd 1), h3.add (hd 2), ?_, h5.add (hd 4), h6.add (hd 5)⟩
  show ((I.addVec d).yaw).Has (s.yaw.add (Angle.ofRad (v 3))).getAngle
  rw [Angle.add_ofRad', getAngle_head (h4.add (hd 3)) hh]
  exact h4.add (hd 3)

theorem Has.subVec {I : CtraIvl} {s : CtraState} (h : I.Has s) {d : Fin 6 → Ivl} {v : Fin 6 → ℝ}
    (hd : ∀ i, (d i).Has (v i)) (hh : head (I.subVec d).yaw = true) :
    (I.subVec d).Has (s.sub (.ofVec v)) := by
  obtain ⟨h1, h2, h3, h4, h5, h6⟩ := h
  refine ⟨h1.sub (hd 0), h2.sub (hd 1), h3.sub (hd 2), ?_, h5.sub (hd 4), h6.sub (hd 5)⟩
  show ((I.subVec d).yaw).Has (s.yaw.sub (Angle.ofRad (v 3))).getAngle
  rw [Angle_sub_ofRad', getAngle_head (h4.sub (hd 3)) hh]
  exact h4.sub (hd 3)

/-- prediction over one second, for yaw rates of at least 0.1 -/
def next (I : CtraIvl) : CtraIvl :=
  let b := (I.yaw.add I.w).out
  let u := I.v.add I.a
  let q := (I.w.mul I.w).inv.out
  ⟨(I.x.add (q.mul ((((u.mul I.w).mul b.sin.out).add (I.a.mul b.cos.out)).sub ((I.v.mul I.w).mul I.yaw.sin.out) |>.sub
      (I.a.mul I.yaw.cos.out)))).out,
   (I.y.add (q.mul ((((u.neg.mul I.w).mul b.cos.out).add (I.a.mul b.sin.out)).add ((I.v.mul I.w).mul I.yaw.cos.out) |>.sub
      (I.a.mul I.yaw.sin.out)))).out, u, b, I.w, I.a⟩

/-- what `next` needs -/
def nextOk (I : CtraIvl) : Bool :=
  decide (1 / 10 ≤ I.w.lo) && decide (0 < (I.w.mul I.w).lo) && head I.yaw && head I.next.yaw

theorem Has.next {I : CtraIvl} {s : CtraState} (h : I.Has s) (hk : I.nextOk = true) :
    I.next.Has (s.next 1) := by
  obtain ⟨h1, h2, h3, h4, h5, h6⟩ := h
  simp only [nextOk, Bool.and_eq_true, decide_eq_true_eq] at hk
  obtain ⟨⟨⟨hw, hw2⟩, ha⟩, hb⟩ := hk
  have hw' : (1 / 10 : ℝ) ≤ I.w.lo := by
    have : ((1 / 10 : ℚ) : ℝ) ≤ I.w.lo := by exact_mod_cast hw
    push_cast at this
    exact this
  have hne : ¬ unitsEq s.yawRate 0 := by
    rw [unitsEq_zero_iff, not_lt]
    have hd : dblMin ≤ 1 / 10 := by
      unfold dblMin
      refine one_div_le_one_div_of_le (by norm_num) (le_trans (b := (2 : ℝ) ^ 4) (by norm_num) ?_)
      exact pow_le_pow_right₀ (by norm_num) (by norm_num)
    exact (hd.trans (hw'.trans h5.1)).trans (le_abs_self _)
  have hB : I.next.yaw.Has (s.yaw.getAngle + s.yawRate) := (h4.add h5).out
  have hu : I.next.v.Has (s.v + s.a) := h3.add h6
  have hq : (((I.w.mul I.w).inv).out).Has (1 / (s.yawRate * s.yawRate)) := by
    rw [one_div]
    exact ((h5.mul h5).inv hw2).out
  have sb := (hB.sin (head_mid hb hB.le)).out
  have cb := (hB.cos (head_mid hb hB.le)).out
  have sa := (h4.sin (head_mid ha h4.le)).out
  have ca := (h4.cos (head_mid ha h4.le)).out
  have hyaw : (s.yaw.add (Angle.ofRad s.yawRate)).getAngle = s.yaw.getAngle + s.yawRate := by
    rw [Angle.add_ofRad', getAngle_head hB hb]
  simp only [CtraState.next, if_neg hne, mul_one, hyaw]
  refine ⟨(h1.add (hq.mul (((((hu.mul h5).mul sb).add (h6.mul cb)).sub ((h3.mul h5).mul sa)).sub (h6.mul ca)))).out,
    (h2.add (hq.mul (((((hu.neg.mul h5).mul cb).add (h6.mul sb)).add ((h3.mul h5).mul ca)).sub (h6.mul sa)))).out,
    hu, ?_, h5, h6⟩
  show I.next.yaw.Has (s.yaw.add (Angle.ofRad s.yawRate)).getAngle
  rw [hyaw]
  exact hB

/-- inclusion -/
def sub? (I J : CtraIvl) : Bool :=
  I.x.sub? J.x && I.y.sub? J.y && I.v.sub? J.v && I.yaw.sub? J.yaw && I.w.sub? J.w && I.a.sub? J.a

theorem Has.mono {I J : CtraIvl} {s : CtraState} (h : I.Has s) (hs : I.sub? J = true) : J.Has s := by
  simp only [sub?, Bool.and_eq_true] at hs
  obtain ⟨⟨⟨⟨⟨a, b⟩, c⟩, d⟩, e⟩, f⟩ := hs
  obtain ⟨h1, h2, h3, h4, h5, h6⟩ := h
  exact ⟨h1.mono a, h2.mono b, h3.mono c, h4.mono d, h5.mono e, h6.mono f⟩

end CtraIvl

/-- the displacement of the `j`-th pair of sigma points -/
def colIvl6 (r : Ivl) (L : Fin 6 → Fin 6 → Ivl) (j : Fin 6) : Fin 6 → Ivl := fun i => (r.mul (L i j)).out

/-- one pair of sigma points and its prediction lie in the given enclosures -/
def pairOk6 (I : CtraIvl) (r : Ivl) (L : Fin 6 → Fin 6 → Ivl) (j : Fin 6) (J : CtraIvl × CtraIvl) : Bool :=
  let p := I.addVec (colIvl6 r L j)
  let q := I.subVec (colIvl6 r L j)
  head p.yaw && head q.yaw && p.nextOk && q.nextOk && p.next.sub? J.1 && q.next.sub? J.2 &&
    head J.1.yaw && head J.2.yaw

theorem rotateYaw_head6 {I : CtraIvl} {s : CtraState} (h : I.Has s) (hh : head I.yaw = true) :
    rotateYaw s.toVec = s.toVec := by
  funext i
  unfold rotateYaw
  rw [if_neg]
  rintro ⟨hi, hg⟩
  obtain rfl : i = 3 := Fin.ext hi
  have : s.toVec 3 = s.yaw.getAngle := rfl
  have h3 := (head_range h.2.2.2.1 hh).2
  rw [this, gt_iff_lt, yawCut] at hg
  norm_num at hg
  linarith

/-- the rows computed by the prediction -/
theorem predictedRows_has6 {I I' : CtraIvl} {s : CtraState} (hI : I.Has s) {r : Ivl} {ρ : ℝ}
    (hr : r.Has ρ) {L : Fin 6 → Fin 6 → Ivl} {M : Matrix (Fin 6) (Fin 6) ℝ}
    (hL : ∀ i j, (L i j).Has (M i j)) {J : Fin 6 → CtraIvl × CtraIvl}
    (h0 : (I.nextOk && I.next.sub? I' && head I'.yaw) = true) (hJ : ∀ j, pairOk6 I r L j (J j) = true) :
    RowsHave (I'.toVec :: (List.finRange 6).flatMap fun j => [(J j).1.toVec, (J j).2.toVec])
      (predictedRows s M ρ 1) := by
  simp only [Bool.and_eq_true] at h0
  obtain ⟨⟨a, b⟩, c⟩ := h0
  have hn := (hI.next a).mono b
  unfold predictedRows sigmaLoop
  rw [List.map_cons, List.map_flatMap]
  have e0 : rotateYaw (MotionModel.toVec (MotionModel.next s 1)) = (s.next 1).toVec := rotateYaw_head6 hn c
  rw [e0]
  refine .cons (fun i => hn.toVec i) ?_
  generalize List.finRange 6 = l
  induction l with
  | nil => exact .nil
  | cons j l ih =>
    have hj := hJ j
    simp only [pairOk6, Bool.and_eq_true] at hj
    obtain ⟨⟨⟨⟨⟨⟨⟨k1, k2⟩, k3⟩, k4⟩, k5⟩, k6⟩, k7⟩, k8⟩ := hj
    have hd : ∀ i, (colIvl6 r L j i).Has ((ρ • M.col j) i) := fun i => (hr.mul (hL i j)).out
    have hp := ((hI.addVec hd k1).next k3).mono k5
    have hq := ((hI.subVec hd k2).next k4).mono k6
    rw [List.flatMap_cons, List.flatMap_cons]
    refine .cons ?_ (.cons ?_ ih)
    · intro i
      have e : rotateYaw (MotionModel.toVec (MotionModel.next
          (MotionModel.add s (MotionModel.ofVec (ρ • M.col j) : CtraState)) 1)) =
          ((s.add (.ofVec (ρ • M.col j))).next 1).toVec := rotateYaw_head6 hp k7
      simp only [e]
      exact hp.toVec i
    · intro i
      have e : rotateYaw (MotionModel.toVec (MotionModel.next
          (MotionModel.sub s (MotionModel.ofVec (ρ • M.col j) : CtraState)) 1)) =
          ((s.sub (.ofVec (ρ • M.col j))).next 1).toVec := rotateYaw_head6 hq k8
      simp only [e]
      exact hq.toVec i

end Mot.Checks
