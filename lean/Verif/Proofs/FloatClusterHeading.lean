import Verif.Proofs.FloatClustering
import Verif.Proofs.FloatHeading
import Mathlib.Analysis.SpecialFunctions.Trigonometric.Bounds
/-!
# The heading of a centroid in floating-point arithmetic
-/

namespace Mot

open Spec

namespace Spec.NearMod2Pi

theorem of_near {a b ε : ℝ} (h : |a - b| ≤ ε) : NearMod2Pi a b ε := ⟨0, by simpa using h⟩

theorem mono {a b ε δ : ℝ} (h : NearMod2Pi a b ε) (h' : ε ≤ δ) : NearMod2Pi a b δ :=
  h.imp fun _ hk => hk.trans h'

theorem trans {a b c ε δ : ℝ} (h : NearMod2Pi a b ε) (h' : NearMod2Pi b c δ) :
    NearMod2Pi a c (ε + δ) := by
  obtain ⟨k, hk⟩ := h
  obtain ⟨j, hj⟩ := h'
  refine ⟨k + j, ?_⟩
  have := abs_add_le (a - b - k * (2 * Real.pi)) (b - c - j * (2 * Real.pi))
  push_cast
  rw [show a - c - ((k : ℝ) + j) * (2 * Real.pi) =
    a - b - k * (2 * Real.pi) + (b - c - j * (2 * Real.pi)) by ring]
  linarith

theorem add {a b c d ε δ : ℝ} (h : NearMod2Pi a b ε) (h' : NearMod2Pi c d δ) :
    NearMod2Pi (a + c) (b + d) (ε + δ) := by
  obtain ⟨k, hk⟩ := h
  obtain ⟨j, hj⟩ := h'
  refine ⟨k + j, ?_⟩
  have := abs_add_le (a - b - k * (2 * Real.pi)) (c - d - j * (2 * Real.pi))
  push_cast
  rw [show a + c - (b + d) - ((k : ℝ) + j) * (2 * Real.pi) =
    a - b - k * (2 * Real.pi) + (c - d - j * (2 * Real.pi)) by ring]
  linarith

theorem of_dir {a b ε : ℝ} (h : SameDirection a b ε) : NearMod2Pi a b (3 * ε) := by
  have hε : 0 ≤ ε := (abs_nonneg _).trans h.1
  have hpi := Real.pi_pos
  have hpi4 := Real.pi_lt_d2
  obtain ⟨k, ⟨hk1, hk2⟩, -⟩ := existsUnique_sub_zsmul_mem_Ico (Real.two_pi_pos) (a - b) (-Real.pi)
  rw [zsmul_eq_mul] at hk1 hk2
  refine ⟨k, ?_⟩
  set w := a - b - k * (2 * Real.pi) with hw
  have hc : Real.cos w = Real.cos (a - b) := by
    rw [hw]
    exact Real.cos_sub_int_mul_two_pi _ _
  have h1 : 1 - Real.cos w ≤ ε ^ 2 := by
    rw [hc, Real.cos_sub]
    have e1 := Real.sin_sq_add_cos_sq a
    have e2 := Real.sin_sq_add_cos_sq b
    have s1 : (Real.sin a - Real.sin b) ^ 2 ≤ ε ^ 2 := by
      rw [← sq_abs]; exact pow_le_pow_left₀ (abs_nonneg _) h.1 2
    have s2 : (Real.cos a - Real.cos b) ^ 2 ≤ ε ^ 2 := by
      rw [← sq_abs]; exact pow_le_pow_left₀ (abs_nonneg _) h.2 2
    nlinarith
  have habs : |w| ≤ Real.pi := abs_le.2 ⟨hk1, by linarith⟩
  have h2 : 2 / Real.pi * (|w| / 2) ≤ Real.sin (|w| / 2) :=
    Real.mul_le_sin (by positivity) (by linarith)
  have h3 : 2 * Real.sin (|w| / 2) ^ 2 = 1 - Real.cos w := by
    rw [← Real.cos_abs w]
    have e1 := Real.sin_sq_add_cos_sq (|w| / 2)
    have e2 : Real.cos |w| = 2 * Real.cos (|w| / 2) ^ 2 - 1 := by
      rw [← Real.cos_two_mul]
      congr 1
      ring
    linarith
  have h4 : 0 ≤ 2 / Real.pi * (|w| / 2) := by positivity
  have h5 := pow_le_pow_left₀ h4 h2 2
  have h6 : (2 / Real.pi * (|w| / 2)) ^ 2 = |w| ^ 2 / Real.pi ^ 2 := by
    field_simp
  rw [h6] at h5
  have h7 : |w| ^ 2 ≤ Real.pi ^ 2 * (ε ^ 2 / 2) := by
    rw [div_le_iff₀ (by positivity)] at h5
    nlinarith [sq_nonneg Real.pi]
  have h8 : Real.pi ^ 2 ≤ 10 := by nlinarith
  refine abs_le_of_sq_le_sq' ?_ (by positivity) |> fun h => abs_le.2 h
  rw [← sq_abs w]
  nlinarith [sq_nonneg ε]

end Spec.NearMod2Pi

/-- reading an angle made from a sum or difference of two readings -/
theorem getAngle_ofRad_near {m : Libm} (hm : AccuratePhase m) {y : ℚ} (hy : |y| ≤ 14) :
    ∃ b : ℚ, m.getAngle (m.ofRad (FP.ofRat binary64 y)) = .fin b ∧ 0 ≤ b ∧
      (b : ℝ) < 2 * Real.pi ∧ NearMod2Pi b y (63 / 2 ^ 53) := by
  rw [b64_ofRat (hy.trans (by norm_num))]
  obtain ⟨b, h0, h1, h2, h3⟩ := getAngle_ofRad_dir hm (q := binary64.round y)
    ((abs_b64_le hy (by norm_num)).trans (by norm_num))
  refine ⟨b, h0, h1, h2, ((NearMod2Pi.of_dir h3).trans (NearMod2Pi.of_near (b64_cast y))).mono ?_⟩
  have : |(y : ℝ)| ≤ 14 := by exact_mod_cast hy
  norm_num
  linarith

section
variable {m : Libm} {δ : Type} [SqDistF m δ] [ReadableF δ] [ClusterLawsF δ]

/-- the heading of the running sum -/
theorem run_heading (hm : AccuratePhase m) (h : List (ClusterOp δ)) {r : δ → ℚ}
    (hr : ∀ d, ClusterOp.add d ∈ h → ReadableF.reading d 3 = .fin (r d) ∧ |r d| ≤ 7) :
    ∃ g : ℚ, m.getAngle (ClusterOf.run h : ClusterOf (PointF m) δ).stateSum.yaw = .fin g ∧ 0 ≤ g ∧
      (g : ℝ) < 2 * Real.pi ∧ NearMod2Pi g (total r h : ℚ) ((h.length + 1) / 2 ^ 47) := by
  have seven : ∀ {g : ℚ}, 0 ≤ g → (g : ℝ) < 2 * Real.pi → |g| ≤ 7 := by
    intro g g1 g2
    rw [abs_of_nonneg g1]
    have := Real.pi_lt_d2
    have : (g : ℝ) ≤ 7 := by linarith
    exact_mod_cast this
  induction h with
  | nil =>
    obtain ⟨b, h0, h1, h2, h3⟩ := getAngle_ofRad_near hm (y := 0) (by norm_num)
    have e : FP.ofRat binary64 0 = .fin 0 := by decide +kernel
    rw [e] at h0
    refine ⟨b, h0, h1, h2, ?_⟩
    simp only [total, kept, ghosts, List.map_nil, List.sum_nil, add_zero]
    exact h3.mono (by norm_num)
  | cons op h ih =>
    obtain ⟨g, g0, g1, g2, g3⟩ := ih fun d hd => hr d (List.mem_cons_of_mem _ hd)
    have hl : ((op :: h).length : ℝ) = h.length + 1 := by simp
    rw [hl]
    have weak : NearMod2Pi g (total r h : ℚ) ((h.length + 1 + 1) / 2 ^ 47) :=
      g3.mono (div_le_div_of_nonneg_right (by linarith) (by positivity))
    cases op with
    | add d =>
      obtain ⟨e1, e2⟩ := hr d List.mem_cons_self
      obtain ⟨b, h0, h1, h2, h3⟩ := getAngle_ofRad_near hm (y := g + r d)
        ((abs_add_le _ _).trans (by linarith [seven g1 g2]))
      refine ⟨b, ?_, h1, h2, ?_⟩
      · show m.getAngle (ClusterableOf.addTo (ClusterOf.run h : ClusterOf (PointF m) δ).stateSum d).yaw = _
        rw [ClusterLawsF.addTo_yaw, g0, e1]
        exact h0
      · rw [total_add]
        push_cast at h3 ⊢
        refine (h3.trans (g3.add (NearMod2Pi.of_near (a := (r d : ℝ)) (ε := 0) (by simp)))).mono ?_
        norm_num
        linarith
    | remove u =>
      have hh := ClusterOf.run_kept (P := PointF m) h
      rcases hf : (ClusterOf.run h : ClusterOf (PointF m) δ).detections.find? u with _ | d
      · refine ⟨g, ?_, g1, g2, ?_⟩
        · show m.getAngle ((ClusterOf.remove u (ClusterOf.run h : ClusterOf (PointF m) δ)).1).stateSum.yaw = _
          rw [ClusterOf.remove_none hf]
          exact g0
        · have : total r (.remove u :: h) = total r h := by
            simp only [total, kept, ghosts]
            rw [List.filter_eq_self.2]
            intro e he
            simpa using (hh.find?_none u).1 hf e he
          rw [this]
          exact weak
      · obtain ⟨hd, rfl⟩ := (hh.find? u d).1 hf
        obtain ⟨e1, e2⟩ := hr d (List.mem_cons_of_mem _ (added_of_kept hd))
        obtain ⟨b, h0, h1, h2, h3⟩ := getAngle_ofRad_near hm (y := g - r d)
          ((abs_sub _ _).trans (by linarith [seven g1 g2]))
        refine ⟨b, ?_, h1, h2, ?_⟩
        · show m.getAngle ((ClusterOf.remove _ (ClusterOf.run h : ClusterOf (PointF m) δ)).1).stateSum.yaw = _
          rw [ClusterOf.remove_some hh hd]
          show m.getAngle (ClusterableOf.subFrom (ClusterOf.run h : ClusterOf (PointF m) δ).stateSum d).yaw = _
          rw [ClusterLawsF.subFrom_yaw, g0, e1]
          exact h0
        · rw [total_remove r hh.nodup hd]
          push_cast [sub_eq_add_neg] at h3 ⊢
          refine (h3.trans (g3.add (NearMod2Pi.of_near (a := -(r d : ℝ)) (ε := 0) (by simp)))).mono ?_
          norm_num
          linarith
    | clear =>
      rw [total_clear]
      exact ⟨g, g0, g1, g2, weak⟩
    | centroid => exact ⟨g, g0, g1, g2, weak⟩

end

end Mot
