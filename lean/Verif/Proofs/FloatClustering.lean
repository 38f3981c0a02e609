import Verif.Proofs.Clustering
import Verif.Proofs.FloatSums
import Verif.Spec.FloatClustering
/-!
# Lemmas about clustering in floating-point arithmetic
-/

namespace Mot

open Spec

local infixl:65 " ⊞ " => FP.add binary64
local infixl:65 " ⊟ " => FP.sub binary64
local infixl:70 " ⊘ " => FP.div binary64

/-- coordinates of a point as `double`s -/
def PointF.coord {m : Libm} (p : PointF m) : Fin 5 → FP :=
  ![p.x, p.y, p.v, m.getAngle p.yaw, p.yawRate]

/-- the detection types treat their members as the specification reads them -/
class ClusterLawsF {m : outParam Libm} (δ : Type) [SqDistF m δ] [ReadableF δ] : Prop
    extends ClusterIds δ where
  addTo_eq (p : PointF m) (d : δ) (i : Fin 5) (hi : i ≠ 3) :
    (ClusterableOf.addTo p d).coord i = p.coord i ⊞ ReadableF.reading d i
  subFrom_eq (p : PointF m) (d : δ) (i : Fin 5) (hi : i ≠ 3) :
    (ClusterableOf.subFrom p d).coord i = p.coord i ⊟ ReadableF.reading d i
  addTo_yaw (p : PointF m) (d : δ) : (ClusterableOf.addTo p d).yaw =
    m.ofRad (m.getAngle p.yaw ⊞ ReadableF.reading d 3)
  subFrom_yaw (p : PointF m) (d : δ) : (ClusterableOf.subFrom p d).yaw =
    m.ofRad (m.getAngle p.yaw ⊟ ReadableF.reading d 3)
  sqDist_eq (sq : FP → FP) (p : PointF m) (d : δ) : SqDistF.sqDist sq p d =
    .fin 0 ⊞ sq (p.coord 0 ⊟ ReadableF.reading d 0) ⊞ sq (p.coord 1 ⊟ ReadableF.reading d 1)
      ⊞ sq (p.coord 2 ⊟ ReadableF.reading d 2) ⊞ sq (p.coord 3 ⊟ ReadableF.reading d 3)
      ⊞ sq (p.coord 4 ⊟ ReadableF.reading d 4)
  makePoint_eq (d : δ) (i : Fin 5) : (ClusterableOf.makePoint d).coord i = ReadableF.reading d i

section
variable {m : Libm} {C C' : Type}

instance clusterLawsFCtrv : ClusterLawsF (DynObj (CtrvStateF m) C) where
  uuid_eq _ := rfl
  addTo_eq p d i hi := by fin_cases i <;> first | exact absurd rfl hi | rfl
  subFrom_eq p d i hi := by fin_cases i <;> first | exact absurd rfl hi | rfl
  addTo_yaw _ _ := rfl
  subFrom_yaw _ _ := rfl
  sqDist_eq _ _ _ := rfl
  makePoint_eq d i := by fin_cases i <;> rfl

instance clusterLawsFCtra : ClusterLawsF (DynObj (CtraStateF m) C) where
  uuid_eq _ := rfl
  addTo_eq p d i hi := by fin_cases i <;> first | exact absurd rfl hi | rfl
  subFrom_eq p d i hi := by fin_cases i <;> first | exact absurd rfl hi | rfl
  addTo_yaw _ _ := rfl
  subFrom_yaw _ _ := rfl
  sqDist_eq _ _ _ := rfl
  makePoint_eq d i := by fin_cases i <;> rfl

instance clusterLawsFVariant : ClusterLawsF (Obj2 (CtrvStateF m) C (CtraStateF m) C') where
  uuid_eq d := by cases d <;> rfl
  addTo_eq p d i hi := by
    cases d
    · exact clusterLawsFCtrv.addTo_eq p _ i hi
    · exact clusterLawsFCtra.addTo_eq p _ i hi
  subFrom_eq p d i hi := by
    cases d
    · exact clusterLawsFCtrv.subFrom_eq p _ i hi
    · exact clusterLawsFCtra.subFrom_eq p _ i hi
  addTo_yaw _ d := by cases d <;> rfl
  subFrom_yaw _ d := by cases d <;> rfl
  sqDist_eq _ _ d := by cases d <;> rfl
  makePoint_eq d i := by
    cases d
    · exact clusterLawsFCtrv.makePoint_eq _ i
    · exact clusterLawsFCtra.makePoint_eq _ i

end

/-! ### The squared distance -/

theorem squares_mul : Squares (fun x => FP.mul binary64 x x) where
  fin q hq := by
    have h2 : q ^ 2 ≤ 2 ^ 202 := by
      rw [← sq_abs]
      calc |q| ^ 2 ≤ (2 ^ 101) ^ 2 := pow_le_pow_left₀ (abs_nonneg _) hq 2
        _ = 2 ^ 202 := by norm_num
    have h0 : |q * q| = q ^ 2 := by rw [abs_of_nonneg (mul_self_nonneg q), sq]
    have hs := b64_std (q * q)
    rw [h0] at hs
    refine ⟨binary64.round (q * q), b64_ofRat ?_, binary64.round_nonneg (mul_self_nonneg q), ?_⟩
    · rw [h0]
      exact h2.trans (by norm_num)
    · rw [sq] at hs ⊢
      refine hs.trans ?_
      have := mul_self_nonneg q
      generalize q * q = Q at *
      norm_num at *
      linarith
  notNeg x := by
    cases x with
    | nan => exact ⟨by simp [FP.mul], by simp [FP.mul]⟩
    | inf s => cases s <;> exact ⟨by simp [FP.mul], by simp [FP.mul]⟩
    | fin q => exact notNeg_ofRat (mul_self_nonneg q)
  inf s := by cases s <;> rfl
  nan := rfl

/-- one squared difference -/
theorem sq_diff {sq : FP → FP} (hsq : Squares sq) {a b : ℚ} (ha : |a| ≤ 2 ^ 99) (hb : |b| ≤ 2 ^ 99) :
    ∃ r : ℚ, sq (.fin a ⊟ .fin b) = .fin r ∧ 0 ≤ r ∧
      |r - (a - b) ^ 2| ≤ (a - b) ^ 2 * (4 / 2 ^ 53 + 1 / 2 ^ 55) + 1 / 2 ^ 199 := by
  have hd : |a - b| ≤ 2 ^ 100 := by
    have := abs_sub a b
    norm_num at *
    linarith
  set d := a - b with hdd
  have e : FP.fin a ⊟ FP.fin b = .fin (binary64.round d) := b64_ofRat (hd.trans (by norm_num))
  have hs := b64_std d
  set D := binary64.round d with hD
  have hD1 : |D| ≤ 2 ^ 101 := by
    have h1 : |D| ≤ |D - d| + |d| := by simpa using abs_add_le (D - d) d
    generalize |D| = A at *
    generalize |D - d| = B at *
    generalize |d| = c at *
    norm_num at *
    linarith
  obtain ⟨r, h1, h2, h3⟩ := hsq.fin D hD1
  refine ⟨r, by rw [e, h1], h2, ?_⟩
  have hsum : |D + d| ≤ |d| * (2 + 1 / 2 ^ 53) + 1 / 2 ^ 200 := by
    have : |D + d| ≤ |D - d| + |2 * d| := by
      have := abs_add_le (D - d) (2 * d)
      rwa [show D - d + 2 * d = D + d by ring] at this
    rw [abs_mul, abs_two] at this
    linarith
  have hm : |D ^ 2 - d ^ 2| ≤ d ^ 2 * (2 / 2 ^ 53 + 1 / 2 ^ 60) + 1 / 2 ^ 250 := by
    rw [show D ^ 2 - d ^ 2 = (D - d) * (D + d) by ring, abs_mul]
    refine (mul_le_mul hs hsum (abs_nonneg _) (by positivity)).trans ?_
    rw [← sq_abs d]
    generalize |d| = x
    have h := sq_nonneg (x * (1 / 2 ^ 35) - 1 / 2 ^ 163)
    have hx := sq_nonneg x
    generalize hX : x ^ 2 = X at *
    have e1 : (x / 2 ^ 53 + 1 / 2 ^ 200) * (x * (2 + 1 / 2 ^ 53) + 1 / 2 ^ 200) =
        X * (2 / 2 ^ 53 + 1 / 2 ^ 106) + x * (1 / 2 ^ 253 + 2 / 2 ^ 200 + 1 / 2 ^ 253) + 1 / 2 ^ 200 * (1 / 2 ^ 200) := by
      rw [← hX]; ring
    rw [e1]
    have e2 : (x * (1 / 2 ^ 35) - 1 / 2 ^ 163) ^ 2 = X / 2 ^ 70 - x * (2 / 2 ^ 198) + 1 / 2 ^ 163 * (1 / 2 ^ 163) := by
      rw [← hX]; ring
    rw [e2] at h
    have hx' : x * (2 / 2 ^ 198) ≤ X / 2 ^ 70 + 1 / 2 ^ 163 * (1 / 2 ^ 163) := by linarith
    norm_num at *
    nlinarith
  have htri : |r - d ^ 2| ≤ |r - D ^ 2| + |D ^ 2 - d ^ 2| := abs_sub_le _ _ _
  have hDle : D ^ 2 ≤ d ^ 2 + |D ^ 2 - d ^ 2| := by
    have := le_abs_self (D ^ 2 - d ^ 2); linarith
  have := sq_nonneg d
  generalize d ^ 2 = x at *
  generalize D ^ 2 = y at *
  generalize |y - x| = z at *
  generalize |r - x| = w at *
  generalize |r - y| = u at *
  norm_num at *
  linarith

/-- one step of the sum: `s` approximates `S` -/
theorem sum_step {s S r R E A F B : ℚ} (hs : |s - S| ≤ S * E + A) (hr : |r - R| ≤ R * F + B)
    (hs0 : 0 ≤ s) (hr0 : 0 ≤ r) (hS : 0 ≤ S) (hR : 0 ≤ R) (hSl : S ≤ 2 ^ 210) (hRl : R ≤ 2 ^ 210)
    (hFE : F ≤ E) (hE1 : E ≤ 1 / 2 ^ 10) (hA : 0 ≤ A) (hA1 : A ≤ 1) (hB : 0 ≤ B)
    (hB1 : B ≤ 1) :
    ∃ t : ℚ, FP.fin s ⊞ FP.fin r = .fin t ∧ 0 ≤ t ∧
      |t - (S + R)| ≤ (S + R) * (E + (1 + 1 / 2 ^ 10) / 2 ^ 53) + (A + B + 1 / 2 ^ 50 * (A + B) + 1 / 2 ^ 200) := by
  have h1 : |(s + r) - (S + R)| ≤ (S + R) * E + (A + B) := by
    have := abs_add_le (s - S) (r - R)
    rw [show s - S + (r - R) = s + r - (S + R) by ring] at this
    nlinarith [mul_nonneg hR (sub_nonneg.2 hFE)]
  have hsum : s + r ≤ (S + R) * (1 + 1 / 2 ^ 10) + (A + B) := by
    have := (abs_le.1 h1).2
    nlinarith [mul_nonneg (add_nonneg hS hR) (sub_nonneg.2 hE1)]
  have hb : |s + r| ≤ 2 ^ 250 := by
    rw [abs_of_nonneg (add_nonneg hs0 hr0)]
    norm_num at *
    linarith
  have h2 := b64_std (s + r)
  refine ⟨binary64.round (s + r), b64_ofRat hb, binary64.round_nonneg (add_nonneg hs0 hr0), ?_⟩
  have h3 := abs_sub_le (binary64.round (s + r)) (s + r) (S + R)
  rw [abs_of_nonneg (add_nonneg hs0 hr0)] at h2
  have h4 : (s + r) / 2 ^ 53 ≤ ((S + R) * (1 + 1 / 2 ^ 10) + (A + B)) / 2 ^ 53 :=
    div_le_div_of_nonneg_right hsum (by positivity)
  have h5 : (A + B) / 2 ^ 53 ≤ 1 / 2 ^ 50 * (A + B) := by
    have : 0 ≤ A + B := add_nonneg hA hB
    norm_num
    linarith
  have e : ((S + R) * (1 + 1 / 2 ^ 10) + (A + B)) / 2 ^ 53 =
      (S + R) * ((1 + 1 / 2 ^ 10) / 2 ^ 53) + (A + B) / 2 ^ 53 := by ring
  rw [e] at h4
  rw [mul_add (S + R)]
  linarith

/-- the computed squared distance of two finite readings -/
theorem sqDist_close {sq : FP → FP} (hsq : Squares sq) {a b : Fin 5 → ℚ}
    (ha : ∀ i, |a i| ≤ 2 ^ 99) (hb : ∀ i, |b i| ≤ 2 ^ 99) :
    ∃ t : ℚ, (.fin 0 ⊞ sq (.fin (a 0) ⊟ .fin (b 0)) ⊞ sq (.fin (a 1) ⊟ .fin (b 1))
      ⊞ sq (.fin (a 2) ⊟ .fin (b 2)) ⊞ sq (.fin (a 3) ⊟ .fin (b 3))
      ⊞ sq (.fin (a 4) ⊟ .fin (b 4))) = .fin t ∧ 0 ≤ t ∧
      |t - sqDistQ a b| ≤ sqDistQ a b / 2 ^ 49 + 1 / 2 ^ 195 := by
  have hl : ∀ i, (a i - b i) ^ 2 ≤ 2 ^ 200 := by
    intro i
    have h : |a i - b i| ≤ 2 ^ 100 := by
      have h1 := abs_sub (a i) (b i)
      have h2 := ha i
      have h3 := hb i
      norm_num at *
      linarith
    rw [← sq_abs]
    calc |a i - b i| ^ 2 ≤ (2 ^ 100) ^ 2 := pow_le_pow_left₀ (abs_nonneg _) h 2
      _ = 2 ^ 200 := by norm_num
  have hn : ∀ i, 0 ≤ (a i - b i) ^ 2 := fun i => sq_nonneg _
  have hq : ∀ i, ∃ r : ℚ, sq (.fin (a i) ⊟ .fin (b i)) = .fin r ∧ 0 ≤ r ∧
      |r - (a i - b i) ^ 2| ≤ (a i - b i) ^ 2 * (4 / 2 ^ 53 + 1 / 2 ^ 55) + 1 / 2 ^ 199 :=
    fun i => sq_diff hsq (ha i) (hb i)
  choose r e r0 hr using hq
  unfold sqDistQ
  simp only [e]
  generalize hw : (fun i => (a i - b i) ^ 2) = w
  have hw' : ∀ i, (a i - b i) ^ 2 = w i := fun i => by rw [← hw]
  simp only [hw'] at hr hl hn ⊢
  clear hw hw' e ha hb hsq
  have l0 := hl 0; have l1 := hl 1; have l2 := hl 2; have l3 := hl 3; have l4 := hl 4
  have n0 := hn 0; have n1 := hn 1; have n2 := hn 2; have n3 := hn 3; have n4 := hn 4
  have q0 := hr 0; have q1 := hr 1; have q2 := hr 2; have q3 := hr 3; have q4 := hr 4
  have m0 := r0 0; have m1 := r0 1; have m2 := r0 2; have m3 := r0 3; have m4 := r0 4
  obtain ⟨t0, e0, p0, h0⟩ := sum_step (s := 0) (S := 0) (E := 4 / 2 ^ 53 + 1 / 2 ^ 55) (A := 0)
    (by norm_num) q0 le_rfl m0 le_rfl n0 (by norm_num) (by norm_num at *; linarith)
    le_rfl (by norm_num) le_rfl (by norm_num) (by norm_num) (by norm_num)
  rw [e0, zero_add] at *
  have h0' : |t0 - w 0| ≤ w 0 * (6 / 2 ^ 53) + 1 / 2 ^ 198 := by
    norm_num at *; linarith
  obtain ⟨t1, e1, p1, h1⟩ := sum_step (E := 6 / 2 ^ 53) h0' q1 p0 m1 n0 n1
    (by norm_num at *; linarith) (by norm_num at *; linarith)
    (by norm_num) (by norm_num) (by norm_num) (by norm_num) (by norm_num) (by norm_num)
  rw [e1]
  have h1' : |t1 - (w 0 + w 1)| ≤ (w 0 + w 1) * (8 / 2 ^ 53) + 1 / 2 ^ 197 := by
    norm_num at *; linarith
  obtain ⟨t2, e2, p2, h2⟩ := sum_step (E := 8 / 2 ^ 53) h1' q2 p1 m2 (add_nonneg n0 n1) n2
    (by norm_num at *; linarith) (by norm_num at *; linarith)
    (by norm_num) (by norm_num) (by norm_num) (by norm_num) (by norm_num) (by norm_num)
  rw [e2]
  have h2' : |t2 - (w 0 + w 1 + w 2)| ≤ (w 0 + w 1 + w 2) * (10 / 2 ^ 53) + 6 / 2 ^ 199 := by
    norm_num at *; linarith
  obtain ⟨t3, e3, p3, h3⟩ := sum_step (E := 10 / 2 ^ 53) h2' q3 p2 m3 (by positivity) n3
    (by norm_num at *; linarith) (by norm_num at *; linarith)
    (by norm_num) (by norm_num) (by norm_num) (by norm_num) (by norm_num) (by norm_num)
  rw [e3]
  have h3' : |t3 - (w 0 + w 1 + w 2 + w 3)| ≤ (w 0 + w 1 + w 2 + w 3) * (12 / 2 ^ 53) + 8 / 2 ^ 199 := by
    norm_num at *; linarith
  obtain ⟨t4, e4, p4, h4⟩ := sum_step (E := 12 / 2 ^ 53) h3' q4 p3 m4 (by positivity) n4
    (by norm_num at *; linarith) (by norm_num at *; linarith)
    (by norm_num) (by norm_num) (by norm_num) (by norm_num) (by norm_num) (by norm_num)
  refine ⟨t4, e4, p4, ?_⟩
  norm_num at *; linarith

/-! ### The running sum -/

section
variable {δ : Type} [Identified δ]

theorem added_of_kept {h : List (ClusterOp δ)} {d : δ} (hd : d ∈ kept h) : ClusterOp.add d ∈ h := by
  induction h with
  | nil => cases hd
  | cons op h ih =>
    cases op with
    | add e =>
      by_cases he : (kept h).any (fun f => Identified.id f = Identified.id e) = true
      · rw [show kept (.add e :: h) = kept h from if_pos he] at hd
        exact List.mem_cons_of_mem _ (ih hd)
      · rw [show kept (.add e :: h) = e :: kept h from if_neg he] at hd
        rcases List.mem_cons.1 hd with rfl | hd
        · exact List.mem_cons_self
        · exact List.mem_cons_of_mem _ (ih hd)
    | remove u => exact List.mem_cons_of_mem _ (ih (List.mem_filter.1 hd).1)
    | clear => cases hd
    | centroid => exact List.mem_cons_of_mem _ (ih hd)

theorem kept_length_le (h : List (ClusterOp δ)) : (kept h).length ≤ h.length := by
  induction h with
  | nil => exact le_rfl
  | cons op h ih =>
    cases op with
    | add d =>
      show (if _ then kept h else d :: kept h).length ≤ _
      split <;> simp <;> omega
    | remove u => exact (List.length_filter_le _ _).trans (ih.trans (Nat.le_succ _))
    | clear => exact Nat.zero_le _
    | centroid => exact ih.trans (Nat.le_succ _)

/-- what the sum of a coordinate should be -/
def total (r : δ → ℚ) (h : List (ClusterOp δ)) : ℚ := ((kept h).map r).sum + ((ghosts h).map r).sum

theorem total_add (r : δ → ℚ) (h : List (ClusterOp δ)) (d : δ) :
    total r (.add d :: h) = total r h + r d := by
  unfold total
  by_cases hd : (kept h).any (fun e => Identified.id e = Identified.id d) = true
  · rw [show kept (.add d :: h) = kept h from if_pos hd,
      show ghosts (.add d :: h) = d :: ghosts h from if_pos hd, List.map_cons, List.sum_cons]
    ring
  · rw [show kept (.add d :: h) = d :: kept h from if_neg hd,
      show ghosts (.add d :: h) = ghosts h from if_neg hd, List.map_cons, List.sum_cons]
    ring

theorem total_clear (r : δ → ℚ) (h : List (ClusterOp δ)) : total r (.clear :: h) = total r h := by
  simp [total, kept, ghosts]

theorem total_remove (r : δ → ℚ) {h : List (ClusterOp δ)} (hn : ((kept h).map Identified.id).Nodup)
    {d : δ} (hd : d ∈ kept h) : total r (.remove (Identified.id d) :: h) = total r h - r d := by
  have := ((ClusterOf.filter_perm hn hd).map r).sum_eq
  rw [List.map_cons, List.sum_cons] at this
  simp only [total, kept, ghosts]
  linarith

end

/-- one addition to the sum -/
theorem total_step {S E x M k : ℚ} (h : |S - E| ≤ k ^ 2 * M / 2 ^ 52) (hE : |E| ≤ k * M) (hx : |x| ≤ M)
    (hM : 1 ≤ M) (hM2 : M ≤ 2 ^ 100) (hk : 0 ≤ k) (hk2 : k ≤ 2 ^ 20) :
    FP.ofRat binary64 (S + x) = .fin (binary64.round (S + x)) ∧
    |binary64.round (S + x) - (E + x)| ≤ (k + 1) ^ 2 * M / 2 ^ 52 ∧ |E + x| ≤ (k + 1) * M := by
  have h1 : |S + x| ≤ |S - E| + |E| + |x| := by
    have a1 := abs_add_le (S - E) E
    have a2 := abs_add_le S x
    rw [sub_add_cancel] at a1
    linarith
  have h2 := b64_std (S + x)
  have h3 := abs_sub_le (binary64.round (S + x)) (S + x) (E + x)
  rw [show S + x - (E + x) = S - E by ring] at h3
  have h4 := abs_add_le E x
  have hA : 0 ≤ k * M := mul_nonneg hk (by linarith)
  have hB : k ^ 2 * M ≤ 2 ^ 20 * (k * M) := by nlinarith
  have hB0 : 0 ≤ k ^ 2 * M := by positivity
  have hA2 : k * M ≤ 2 ^ 20 * 2 ^ 100 := mul_le_mul hk2 hM2 (by linarith) (by positivity)
  have e : (k + 1) ^ 2 * M = k ^ 2 * M + 2 * (k * M) + M := by ring
  have e' : (k + 1) * M = k * M + M := by ring
  rw [e, e']
  generalize k ^ 2 * M = B at *
  generalize k * M = A at *
  generalize ha : |S + x| = a1 at *
  generalize |S - E| = a2 at *
  generalize |E| = a3 at *
  generalize |x| = a4 at *
  generalize |E + x| = a5 at *
  refine ⟨b64_ofRat (ha ▸ ?_), ?_, by linarith⟩
  · norm_num at *
    linarith
  · norm_num at *
    linarith

section
variable {m : Libm} {δ : Type} [SqDistF m δ] [ReadableF δ] [ClusterLawsF δ]

/-- the sum of a coordinate other than the heading, after any history of at most 2^20 calls -/
theorem run_sum (h : List (ClusterOp δ)) {i : Fin 5} (hi : i ≠ 3) {r : δ → ℚ} {M : ℚ} (hM : 1 ≤ M)
    (hM2 : M ≤ 2 ^ 100) (hl : h.length ≤ 2 ^ 20)
    (hr : ∀ d, ClusterOp.add d ∈ h → ReadableF.reading d i = .fin (r d) ∧ |r d| ≤ M) :
    ∃ S : ℚ, (ClusterOf.run h : ClusterOf (PointF m) δ).stateSum.coord i = .fin S ∧
      |S - total r h| ≤ (h.length : ℚ) ^ 2 * M / 2 ^ 52 ∧ |total r h| ≤ h.length * M := by
  induction h with
  | nil =>
    refine ⟨0, ?_, by simp [total, kept, ghosts], by simp [total, kept, ghosts]⟩
    fin_cases i <;> first | exact absurd rfl hi | rfl
  | cons op h ih =>
    obtain ⟨S, h1, h2, h3⟩ := ih (by simp at hl; omega) fun d hd => hr d (List.mem_cons_of_mem _ hd)
    have hk : (0 : ℚ) ≤ h.length := Nat.cast_nonneg _
    have hk2 : (h.length : ℚ) ≤ 2 ^ 20 := by
      have : h.length ≤ 2 ^ 20 := by simp at hl; omega
      exact_mod_cast this
    have hc : ((op :: h).length : ℚ) = h.length + 1 := by simp
    rw [hc]
    have mono1 : (h.length : ℚ) ^ 2 * M / 2 ^ 52 ≤ ((h.length : ℚ) + 1) ^ 2 * M / 2 ^ 52 := by
      have : (h.length : ℚ) ^ 2 ≤ ((h.length : ℚ) + 1) ^ 2 := pow_le_pow_left₀ hk (by linarith) 2
      have := mul_le_mul_of_nonneg_right this (show (0 : ℚ) ≤ M by linarith)
      exact div_le_div_of_nonneg_right this (by positivity)
    have mono2 : (h.length : ℚ) * M ≤ ((h.length : ℚ) + 1) * M := by nlinarith
    cases op with
    | add d =>
      obtain ⟨e1, e2⟩ := hr d List.mem_cons_self
      obtain ⟨s1, s2, s3⟩ := total_step h2 h3 e2 hM hM2 hk hk2
      rw [total_add]
      refine ⟨_, ?_, s2, s3⟩
      show (ClusterableOf.addTo (ClusterOf.run h : ClusterOf (PointF m) δ).stateSum d).coord i = _
      rw [ClusterLawsF.addTo_eq _ _ _ hi, h1, e1]
      exact s1
    | remove u =>
      have hh := ClusterOf.run_kept (P := PointF m) h
      rcases hf : (ClusterOf.run h : ClusterOf (PointF m) δ).detections.find? u with _ | d
      · refine ⟨S, ?_, ?_, ?_⟩
        · show ((ClusterOf.remove u (ClusterOf.run h : ClusterOf (PointF m) δ)).1).stateSum.coord i = _
          rw [ClusterOf.remove_none hf]
          exact h1
        all_goals
          have : total r (.remove u :: h) = total r h := by
            simp only [total, kept, ghosts]
            rw [List.filter_eq_self.2]
            intro e he
            simpa using (hh.find?_none u).1 hf e he
          rw [this]
        · exact h2.trans mono1
        · exact h3.trans mono2
      · obtain ⟨hd, rfl⟩ := (hh.find? u d).1 hf
        obtain ⟨e1, e2⟩ := hr d (List.mem_cons_of_mem _ (added_of_kept hd))
        obtain ⟨s1, s2, s3⟩ := total_step (x := -r d) h2 h3 (by rwa [abs_neg]) hM hM2 hk hk2
        rw [total_remove r hh.nodup hd, sub_eq_add_neg]
        refine ⟨_, ?_, s2, s3⟩
        show ((ClusterOf.remove _ (ClusterOf.run h : ClusterOf (PointF m) δ)).1).stateSum.coord i = _
        rw [ClusterOf.remove_some hh hd]
        show (ClusterableOf.subFrom (ClusterOf.run h : ClusterOf (PointF m) δ).stateSum d).coord i = _
        rw [ClusterLawsF.subFrom_eq _ _ _ hi, h1, e1, ← s1, ← sub_eq_add_neg]
        rfl
    | clear =>
      rw [total_clear]
      exact ⟨S, h1, h2.trans mono1, h3.trans mono2⟩
    | centroid => exact ⟨S, h1, h2.trans mono1, h3.trans mono2⟩

theorem notFin_div {f : Fmt} {a b : FP} (h : a.NotFin) : (FP.div f a b).NotFin := by
  cases a with
  | fin q => exact absurd rfl (h q)
  | nan => cases b <;> intro q <;> simp [FP.div]
  | inf s => cases b <;> intro q <;> simp [FP.div]

/-- a coordinate of the sum that is not finite stays so -/
theorem run_notFin (h : List (ClusterOp δ)) {i : Fin 5} (hi : i ≠ 3) {d : δ} (hd : ClusterOp.add d ∈ h)
    (hr : (ReadableF.reading d i).NotFin) :
    ((ClusterOf.run h : ClusterOf (PointF m) δ).stateSum.coord i).NotFin := by
  induction h with
  | nil => cases hd
  | cons op h ih =>
    cases op with
    | add e =>
      show ((ClusterableOf.addTo (ClusterOf.run h : ClusterOf (PointF m) δ).stateSum e).coord i).NotFin
      rw [ClusterLawsF.addTo_eq _ _ _ hi]
      rcases List.mem_cons.1 hd with he | hd
      · cases he
        exact notFin_add (.inr hr)
      · exact notFin_add (.inl (ih hd))
    | remove u =>
      have hd := ih ((List.mem_cons.1 hd).resolve_left (by simp))
      show (((ClusterOf.remove u (ClusterOf.run h : ClusterOf (PointF m) δ)).1).stateSum.coord i).NotFin
      rcases hf : (ClusterOf.run h : ClusterOf (PointF m) δ).detections.find? u with _ | e
      · rw [ClusterOf.remove_none hf]
        exact hd
      · unfold ClusterOf.remove
        rw [hf]
        simp only
        rw [ClusterLawsF.subFrom_eq _ _ _ hi]
        exact notFin_sub_left hd
    | clear => exact ih ((List.mem_cons.1 hd).resolve_left (by simp))
    | centroid => exact ih ((List.mem_cons.1 hd).resolve_left (by simp))

theorem divide_coord (p : PointF m) (n : ℕ) {i : Fin 5} (hi : i ≠ 3) :
    (PointOps.divideBy p n).coord i = p.coord i ⊘ FP.ofRat binary64 n := by
  fin_cases i <;> first | exact absurd rfl hi | rfl

end

theorem notNeg_zero : (FP.fin 0).NotNeg := ⟨by simp, fun q hq => by cases hq; exact le_rfl⟩

theorem b64_nat {n : ℕ} (hn : n ≤ 2 ^ 52) : FP.ofRat binary64 (n : ℚ) = .fin n := by
  have hq : (n : ℚ) ≤ 2 ^ 52 := by exact_mod_cast hn
  rw [b64_ofRat (by rw [abs_of_nonneg (Nat.cast_nonneg n)]; norm_num at *; linarith)]
  have h := binary64.round_exact (m := (n : ℤ)) (j := 0) (by
    rw [abs_of_nonneg (by omega)]
    show (n : ℤ) < 2 ^ 53
    have : (n : ℤ) ≤ 2 ^ 52 := by exact_mod_cast hn
    norm_num at *
    omega) (by decide)
  rw [zpow_zero, mul_one] at h
  push_cast at h
  rw [h]

/-- the final division -/
theorem mean_step {S T M : ℚ} {k n : ℕ} (h : |S - T| ≤ (k : ℚ) ^ 2 * M / 2 ^ 52) (hT : |T| ≤ k * M)
    (hM : 1 ≤ M) (hM2 : M ≤ 2 ^ 100) (hk2 : k ≤ 2 ^ 20) (hn : 0 < n) (hnk : n ≤ k) :
    ∃ q : ℚ, FP.div binary64 (.fin S) (FP.ofRat binary64 n) = .fin q ∧
      |q - T / n| ≤ (k : ℚ) ^ 2 * M / (n * 2 ^ 51) := by
  have hn1 : (1 : ℚ) ≤ n := by exact_mod_cast hn
  have hnk' : (n : ℚ) ≤ k := by exact_mod_cast hnk
  have hk2' : (k : ℚ) ≤ 2 ^ 20 := by exact_mod_cast hk2
  have hn0 : (0 : ℚ) < n := by linarith
  have hA2 : (k : ℚ) * M ≤ 2 ^ 20 * 2 ^ 100 := mul_le_mul hk2' hM2 (by linarith) (by positivity)
  have hA1 : (1 : ℚ) * 1 ≤ k * M := mul_le_mul (by linarith) hM (by norm_num) (by linarith)
  have hA3 : (n : ℚ) * 1 ≤ k * M := mul_le_mul hnk' hM (by norm_num) (by linarith)
  have hB1 : (k : ℚ) * M ≤ (k : ℚ) ^ 2 * M := by
    rw [sq, mul_assoc]
    exact le_mul_of_one_le_left (by linarith) (by linarith)
  have hB2 : (k : ℚ) ^ 2 * M ≤ 2 ^ 20 * (k * M) := by
    rw [sq, mul_assoc]
    exact mul_le_mul_of_nonneg_right hk2' (by linarith)
  have hS : |S| ≤ |S - T| + |T| := by simpa using abs_add_le (S - T) T
  have hd : |S / n| ≤ |S| := by
    rw [abs_div, abs_of_pos hn0]
    exact div_le_self (abs_nonneg _) hn1
  have e : FP.div binary64 (.fin S) (FP.ofRat binary64 n) = FP.ofRat binary64 (S / n) := by
    rw [b64_nat (hnk.trans (hk2.trans (by norm_num)))]
    exact if_neg hn0.ne'
  refine ⟨_, e.trans (b64_ofRat (hd.trans ?_)), ?_⟩
  · generalize |S| = s at *
    generalize |T| = t at *
    generalize |S - T| = u at *
    generalize (k : ℚ) ^ 2 * M = B at *
    generalize (k : ℚ) * M = A at *
    norm_num at *
    linarith
  rw [le_div_iff₀ (by positivity)]
  have h2 := b64_std (S / n)
  have h3 := abs_sub_le (binary64.round (S / n)) (S / n) (T / n)
  rw [← sub_div, abs_div (S - T), abs_of_pos hn0] at h3
  rw [abs_div, abs_of_pos hn0] at h2
  have h4 := mul_le_mul_of_nonneg_right (h3.trans (add_le_add_left h2 _)) hn0.le
  have e1 : (|S| / n / 2 ^ 53 + 1 / 2 ^ 200 + |S - T| / n) * n = |S| / 2 ^ 53 + n / 2 ^ 200 + |S - T| := by
    field_simp
  rw [e1] at h4
  rw [← mul_assoc]
  generalize |binary64.round (S / n) - T / n| * n = z at *
  generalize |S| = s at *
  generalize |T| = t at *
  generalize |S - T| = u at *
  generalize (k : ℚ) ^ 2 * M = B at *
  generalize (k : ℚ) * M = A at *
  norm_num at *
  linarith

/-! ### Correspondence of clusterings -/

section
variable {P P' δ δ' : Type} [PointOps P] [ClusterableOf P δ] [PointOps P'] [ClusterableOf P' δ']
variable {e : δ → δ'}

theorem emplace_corresponds {c : UMap Uuid δ} {c' : UMap Uuid δ'} (k : Uuid) (d : δ)
    (h : c.entries.map (fun x => (x.1, e x.2)) = c'.entries) :
    (c.emplace k d).entries.map (fun x => (x.1, e x.2)) = (c'.emplace k (e d)).entries := by
  have hk : c.find? k = none ↔ c'.find? k = none := by
    rw [show c.find? k = none ↔ _ from AList.find?_eq_none, show c'.find? k = none ↔ _ from AList.find?_eq_none,
      ← h, List.map_map]
    rfl
  by_cases hf : c.find? k = none
  · rw [UMap.emplace_entries hf, UMap.emplace_entries (hk.1 hf), ← h, List.map_cons]
  · rw [UMap.emplace_of_some hf, UMap.emplace_of_some fun h => hf (hk.2 h), h]

/-- two clusterings of corresponding detections, of which the same pairs are within the threshold -/
theorem clusters_correspond (within : P → δ → Bool) (within' : P' → δ' → Bool) (ds : List δ)
    (hu : ∀ d ∈ ds, ClusterableOf.uuid (e d) = ClusterableOf.uuid d)
    (hn : (ds.map ClusterableOf.uuid).Nodup)
    (hw : ∀ o ∈ ds, ∀ d ∈ ds, ClusterableOf.uuid o ≠ ClusterableOf.uuid d →
      within (ClusterableOf.makePoint o) d = within' (ClusterableOf.makePoint (e o)) (e d)) :
    (clusterDetections within ds).map (fun c => c.detections.entries.map fun x => (x.1, e x.2)) =
      (clusterDetections within' (ds.map e)).map fun c => c.detections.entries := by
  have fold : ∀ (l : List δ) (c : ClusterOf P δ) (c' : ClusterOf P' δ'),
      (∀ d ∈ l, ClusterableOf.uuid (e d) = ClusterableOf.uuid d) →
      c.detections.entries.map (fun x => (x.1, e x.2)) = c'.detections.entries →
      (l.foldl ClusterOf.add c).detections.entries.map (fun x => (x.1, e x.2)) =
        ((l.map e).foldl ClusterOf.add c').detections.entries := by
    intro l
    induction l with
    | nil => exact fun _ _ _ h => h
    | cons d l ih =>
      intro c c' hu h
      refine ih _ _ (fun x hx => hu x (List.mem_cons_of_mem _ hx)) ?_
      show (c.detections.emplace (ClusterableOf.uuid d) d).entries.map _ =
        (c'.detections.emplace (ClusterableOf.uuid (e d)) (e d)).entries
      rw [hu d List.mem_cons_self]
      exact emplace_corresponds _ _ h
  induction ds using cluster_induction within with
  | h0 => simp [clusterDetections_nil]
  | h1 l o ih =>
    have hne : ∀ d ∈ l, ClusterableOf.uuid o ≠ ClusterableOf.uuid d := by
      rw [List.map_append, List.nodup_append] at hn
      exact fun d hd => (hn.2.2 _ (List.mem_map_of_mem hd) _ (by simp)).symm
    have hw' : ∀ d ∈ l, within (ClusterableOf.makePoint o) d =
        within' (ClusterableOf.makePoint (e o)) (e d) := fun d hd =>
      hw o (by simp) d (List.mem_append_left _ hd) (hne d hd)
    have f1 : (l.map e).filter (within' (ClusterableOf.makePoint (e o))) =
        (l.filter (within (ClusterableOf.makePoint o))).map e := by
      rw [List.filter_map]
      exact congrArg _ (List.filter_congr fun d hd => (hw' d hd).symm)
    have f2 : (l.map e).filter (fun d => !within' (ClusterableOf.makePoint (e o)) d) =
        (l.filter (fun d => !within (ClusterableOf.makePoint o) d)).map e := by
      rw [List.filter_map]
      exact congrArg _ (List.filter_congr fun d hd => by simp [hw' d hd])
    rw [List.map_append, List.map_singleton, clusterDetections_concat, clusterDetections_concat,
      List.map_cons, List.map_cons, f1, f2]
    have sub : ∀ d ∈ l.filter (fun d => !within (ClusterableOf.makePoint o) d), d ∈ l ++ [o] :=
      fun d hd => List.mem_append_left _ (List.mem_filter.1 hd).1
    rw [ih (fun d hd => hu d (sub d hd)) ?_ fun a ha b hb => hw a (sub a ha) b (sub b hb)]
    · congr 1
      refine fold _ _ _ (fun d hd => hu d (List.mem_append_left _ (List.mem_filter.1 hd).1)) ?_
      show (UMap.empty.emplace (ClusterableOf.uuid o) o).entries.map _ =
        (UMap.empty.emplace (ClusterableOf.uuid (e o)) (e o)).entries
      rw [hu o (by simp)]
      exact emplace_corresponds _ _ rfl
    · rw [List.map_append, List.nodup_append] at hn
      exact hn.1.sublist (List.filter_sublist.map _)

/-- a detection that is not within the threshold of any other, nor any other of it -/
theorem cluster_alone [Identified δ] [ClusterIds δ] (within : P → δ → Bool) (ds : List δ)
    (hn : (ds.map Identified.id).Nodup) {d : δ} (hd : d ∈ ds)
    (h1 : ∀ o ∈ ds, within (ClusterableOf.makePoint o) d = false)
    (h2 : ∀ x ∈ ds, within (ClusterableOf.makePoint d) x = false) :
    ∃ c ∈ clusterDetections within ds, c.detections.entries = [(Identified.id d, d)] := by
  induction ds using cluster_induction within with
  | h0 => cases hd
  | h1 l o ih =>
    rw [clusterDetections_concat]
    by_cases ho : d = o
    · subst ho
      refine ⟨_, List.mem_cons_self, ?_⟩
      have : l.filter (within (ClusterableOf.makePoint d)) = [] := by
        rw [List.filter_eq_nil_iff]
        intro x hx
        simp [h2 x (List.mem_append_left _ hx)]
      rw [this]
      have hh : (ClusterOf.new.add d).Holds [d] := ClusterOf.Holds.new.add (by simp)
      exact List.perm_singleton.1 hh
    · have sub : ∀ d ∈ l.filter (fun d => !within (ClusterableOf.makePoint o) d), d ∈ l ++ [o] :=
        fun d hd => List.mem_append_left _ (List.mem_filter.1 hd).1
      have hdl : d ∈ l := by
        rcases List.mem_append.1 hd with h | h
        · exact h
        · exact absurd (List.mem_singleton.1 h) ho
      obtain ⟨c, hc, he⟩ := ih (nodup_rest hn)
        (List.mem_filter.2 ⟨hdl, by simp [h1 o (by simp)]⟩)
        (fun x hx => h1 x (sub x hx)) fun x hx => h2 x (sub x hx)
      exact ⟨c, List.mem_cons_of_mem _ hc, he⟩

end

end Mot
