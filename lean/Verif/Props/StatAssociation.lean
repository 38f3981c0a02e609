import Verif.Props.StatGate
import Verif.Spec.StatGate
/-!
# C134: when association by Mahalanobis scores is right
-/

namespace Mot.Props

open Mot Matrix Spec Real Manager

private theorem gap_eq (p q : Fin 3 → ℝ) : poseGap p q = poseDistance p q := (poseDistance_sq p q).symm

private theorem stat_between {C : Matrix (Fin 3) (Fin 3) ℝ} {p q : Fin 3 → ℝ} {d l L : ℝ}
    (h : IsStatDistance C ![p 0 - q 0, p 1 - q 1, p 2 - q 2] d) (hl : 0 < l)
    (hC : ∀ w, l * (w ⬝ᵥ w) ≤ w ⬝ᵥ (C *ᵥ w) ∧ w ⬝ᵥ (C *ᵥ w) ≤ L * (w ⬝ᵥ w)) :
    0 ≤ d ∧ d ≤ poseGap p q / √l ∧ poseGap p q / √L ≤ d := by
  set δ : Fin 3 → ℝ := ![p 0 - q 0, p 1 - q 1, p 2 - q 2] with hδ
  have hgap : poseGap p q = √(δ ⬝ᵥ δ) := by
    unfold poseGap
    simp only [hδ, dotProduct, Fin.sum_univ_three, cons_val, ← sq]
  have hδ0 : 0 ≤ δ ⬝ᵥ δ := by
    simp only [dotProduct, Fin.sum_univ_three]
    nlinarith [sq_nonneg (δ 0), sq_nonneg (δ 1), sq_nonneg (δ 2)]
  have hL : 0 < L := by
    have := hC ![1, 0, 0]
    simp only [dotProduct, Fin.sum_univ_three, cons_val] at this
    linarith [this.1, this.2]
  have hd0 : 0 ≤ d := h.1.1
  refine ⟨hd0, ?_, ?_⟩
  · rw [hgap]
    refine h.2 ⟨by positivity, fun w => ?_⟩
    rw [div_pow, Real.sq_sqrt hδ0, Real.sq_sqrt hl.le, div_mul_eq_mul_div, le_div_iff₀ hl]
    have h1 : (w ⬝ᵥ δ) ^ 2 ≤ (w ⬝ᵥ w) * (δ ⬝ᵥ δ) := by
      simp only [dotProduct, Fin.sum_univ_three]
      nlinarith [sq_nonneg (w 0 * δ 1 - w 1 * δ 0), sq_nonneg (w 0 * δ 2 - w 2 * δ 0), sq_nonneg (w 1 * δ 2 - w 2 * δ 1)]
    have h2 := mul_le_mul_of_nonneg_left (hC w).1 hδ0
    nlinarith
  · rw [hgap, div_le_iff₀ (Real.sqrt_pos.2 hL)]
    refine Real.sqrt_le_iff.2 ⟨by positivity, ?_⟩
    rw [mul_pow, Real.sq_sqrt hL.le]
    rcases hδ0.eq_or_lt with h0 | h0
    · rw [← h0]; positivity
    have h1 := h.1.2 δ
    have h2 := mul_le_mul_of_nonneg_left (hC δ).2 (sq_nonneg d)
    have h3 : (δ ⬝ᵥ δ) * (δ ⬝ᵥ δ) ≤ (d ^ 2 * L) * (δ ⬝ᵥ δ) := by nlinarith
    exact le_of_mul_le_mul_right h3 h0

private theorem forall_right {a b : Type} {r : a → b → Prop} {l : List a} {l' : List b} (h : List.Forall₂ r l l') :
    ∀ y ∈ l', ∃ x ∈ l, r x y := by
  induction h with
  | nil => simp
  | cons h _ ih =>
    intro y hy
    rcases List.mem_cons.1 hy with rfl | hy
    · exact ⟨_, List.mem_cons_self, h⟩
    · obtain ⟨x, hx, hr⟩ := ih y hy
      exact ⟨x, List.mem_cons_of_mem _ hx, hr⟩

/-- the Mahalanobis score with rounding -/
private theorem score_between (rd : Option ℝ → FP) {t d : MotObj} (hk : t.isLeft = d.isLeft) {l L : ℝ} (hl : 0 < l)
    (ht : SureWithin l L t) :
    ∃ x, mahalanobisScore (fun s P q => rd (CtrvState.mahalanobis s P q)) (fun s P q => rd (CtraState.mahalanobis s P q))
        t d = some (rd (some x)) ∧ 0 ≤ x ∧ x ≤ poseGap (objPose t) (objPose d) / √l ∧
      poseGap (objPose t) (objPose d) / √L ≤ x := by
  rcases t with t | t <;> rcases d with d | d
  · obtain ⟨x, hx, hst⟩ := C57_ctrv_stat_distance t.state d.state t.covariance ht.1
    refine ⟨x, ?_, stat_between (p := objPose (.inl t)) (q := objPose (.inl d)) hst hl ht.2⟩
    show some (rd (t.state.mahalanobis t.covariance d.state)) = _
    rw [hx]
  · cases hk
  · cases hk
  · obtain ⟨x, hx, hst⟩ := C57_ctra_stat_distance t.state d.state t.covariance ht.1
    refine ⟨x, ?_, stat_between (p := objPose (.inr t)) (q := objPose (.inr d)) hst hl ht.2⟩
    show some (rd (t.state.mahalanobis t.covariance d.state)) = _
    rw [hx]

/-- C134: tracks that are at most `R` and detections that are at most `ε` from the objects they show, objects that
are at least `D` apart, variances of the tracks between `l` and `L`, and a gate between `(R + ε) / √l` and
`(D - R - ε) / √L`.  Then the Mahalanobis scores tell the objects apart in the sense of C102.  `rd` is the
rounding of the score; it is right up to a fraction `u`. -/
theorem C134_apart {ι : Type} {R ε D u l L : ℝ} (hl : 0 < l) {label : Uuid → ι} {world : ι → Fin 3 → ℝ}
    {ts ds : List MotObj} (hts : ∀ t ∈ ts, poseGap (objPose t) (world (label (TrackOps.uuid t))) ≤ R)
    (hsure : ∀ t ∈ ts, SureWithin l L t)
    (hds : ∀ d ∈ ds, poseGap (objPose d) (world (label (TrackOps.uuid d))) ≤ ε)
    (hkind : ∀ t ∈ ts, ∀ d ∈ ds, label (TrackOps.uuid t) = label (TrackOps.uuid d) → t.isLeft = d.isLeft)
    (hapart : ∀ t ∈ ts, ∀ d ∈ ds, label (TrackOps.uuid t) ≠ label (TrackOps.uuid d) →
      D ≤ poseGap (world (label (TrackOps.uuid t))) (world (label (TrackOps.uuid d))))
    {rd : Option ℝ → FP} {gate : FP → Bool} {g : ℚ} (hu : 0 ≤ u) (hu1 : u < 1)
    (hrd : ∀ x, 0 ≤ x → (∃ q, rd (some x) = .fin q ∧ Near u x q) ∨ ((R + ε) / √l < x ∧ gate (rd (some x)) = true))
    (hg : ∀ q, gate (.fin q) = decide (g < q)) (hg31 : g ≤ 10 ^ 31)
    (hgR : (R + ε) / √l * (1 + u) ≤ g) (hgD : g < (D - (R + ε)) / √L * (1 - u))
    (hdef : (∃ t ∈ ts, ∃ d ∈ ds, ∃ t' ∈ ts, ∃ d' ∈ ds, label (TrackOps.uuid t) = label (TrackOps.uuid d) ∧
        label (TrackOps.uuid t') = label (TrackOps.uuid d') ∧ label (TrackOps.uuid t') ≠ label (TrackOps.uuid t)) ∨
      ∃ t ∈ ts, ∃ d ∈ ds, label (TrackOps.uuid t) = label (TrackOps.uuid d) ∧ objPose t ≠ objPose d) :
    Apart label (mahalanobisScore (fun s P q => rd (CtrvState.mahalanobis s P q))
      (fun s P q => rd (CtraState.mahalanobis s P q))) gate ts ds := by
  set metric : MotObj → MotObj → Option FP := mahalanobisScore (fun s P q => rd (CtrvState.mahalanobis s P q))
    (fun s P q => rd (CtraState.mahalanobis s P q)) with hmetric
  have hnear : ∀ t ∈ ts, ∀ d ∈ ds, label (TrackOps.uuid t) = label (TrackOps.uuid d) →
      poseGap (objPose t) (objPose d) ≤ R + ε := by
    intro t ht d hd hlb
    have h1 := hts t ht
    have h4 := hds d hd
    rw [hlb] at h1
    rw [gap_eq] at *
    rw [poseDistance_comm] at h4
    linarith [poseDistance_triangle (objPose t) (world (label (TrackOps.uuid d))) (objPose d)]
  have hfar : ∀ t ∈ ts, ∀ d ∈ ds, label (TrackOps.uuid t) ≠ label (TrackOps.uuid d) →
      D - (R + ε) ≤ poseGap (objPose t) (objPose d) := by
    intro t ht d hd hlb
    have h1 := hts t ht
    have h4 := hds d hd
    have h5 := hapart t ht d hd hlb
    rw [gap_eq] at *
    rw [poseDistance_comm] at h1
    have h6 := poseDistance_triangle (world (label (TrackOps.uuid t))) (objPose t) (world (label (TrackOps.uuid d)))
    have h7 := poseDistance_triangle (objPose t) (objPose d) (world (label (TrackOps.uuid d)))
    linarith
  have hdiff : ∀ t d : MotObj, t.isLeft ≠ d.isLeft → metric t d = none := by
    intro t d hk
    rcases t with t | t <;> rcases d with d | d <;> first | rfl | exact absurd rfl hk
  have hsv : ∀ t ∈ ts, ∀ d : MotObj, ∀ s, Survives metric gate t d s →
      ∃ (q : ℚ) (x : ℝ), s = .fin q ∧ 0 ≤ q ∧ q ≤ g ∧ 0 ≤ x ∧ |(q : ℝ) - x| ≤ u * x ∧
        poseGap (objPose t) (objPose d) / √L ≤ x := by
    rintro t ht d s ⟨h1, h2⟩
    by_cases hk : t.isLeft = d.isLeft
    · obtain ⟨x, hx, hx0, -, hxL⟩ := score_between rd hk hl (hsure t ht)
      rw [hmetric, hx] at h1
      cases h1
      rcases hrd x hx0 with ⟨q, hq, hq0, hq1⟩ | ⟨-, h⟩
      · rw [hq, hg, decide_eq_false_iff_not, not_lt] at h2
        exact ⟨q, x, hq, hq0, h2, hx0, hq1, hxL⟩
      · rw [h] at h2; cases h2
    · rw [hdiff t d hk] at h1
      cases h1
  have hown : ∀ t ∈ ts, ∀ d ∈ ds, label (TrackOps.uuid t) = label (TrackOps.uuid d) →
      ∃ q : ℚ, Survives metric gate t d (.fin q) := by
    intro t ht d hd hlb
    obtain ⟨x, hx, hx0, hxl, -⟩ := score_between rd (hkind t ht d hd hlb) hl (hsure t ht)
    have hle : x ≤ (R + ε) / √l :=
      hxl.trans (div_le_div_of_nonneg_right (hnear t ht d hd hlb) (Real.sqrt_nonneg _))
    rcases hrd x hx0 with ⟨q, hq, hq0, hq1⟩ | ⟨h, -⟩
    · refine ⟨q, by rw [hmetric, hx, hq], ?_⟩
      rw [hg, decide_eq_false_iff_not, not_lt]
      have h1 := (abs_le.1 hq1).2
      have h2 := mul_le_mul_of_nonneg_right hle (show 0 ≤ 1 + u by linarith)
      have : (q : ℝ) ≤ g := by linarith
      exact_mod_cast this
    · exact absurd hle (not_le.2 h)
  refine .inl ⟨?_, ?_, ?_⟩
  · intro t ht d hd
    constructor
    · rintro ⟨s, h⟩
      by_contra hlb
      obtain ⟨q, x, rfl, -, hqg, -, hq1, hxL⟩ := hsv t ht d s h
      have h1 := (abs_le.1 hq1).1
      have h0 := (div_le_div_of_nonneg_right (hfar t ht d hd hlb) (Real.sqrt_nonneg L)).trans hxL
      have h2 := mul_le_mul_of_nonneg_right h0 (show 0 ≤ 1 - u by linarith)
      have h3 : (q : ℝ) ≤ g := by exact_mod_cast hqg
      linarith
    · intro hlb
      obtain ⟨q, hq⟩ := hown t ht d hd hlb
      exact ⟨_, hq⟩
  · intro t ht d _ s h
    obtain ⟨q, -, rfl, h0, hq, -⟩ := hsv t ht d s h
    exact ⟨q, rfl, h0, hq.trans hg31⟩
  · rcases hdef with ⟨t₁, ht₁, d₁, hd₁, t₂, ht₂, d₂, hd₂, hl₁, hl₂, hne⟩ | ⟨t, ht, d, hd, hlb, hne⟩
    · obtain ⟨q, hq⟩ := hown t₁ ht₁ d₁ hd₁ hl₁
      exact ⟨t₁, ht₁, d₁, hd₁, q, hq, .inr ⟨t₂, ht₂, d₂, hd₂, hl₂, hne⟩⟩
    · obtain ⟨q, hq⟩ := hown t ht d hd hlb
      obtain ⟨q', x, hq', -, -, hx0, hq1, hxL⟩ := hsv t ht d _ hq
      cases hq'
      refine ⟨t, ht, d, hd, q, hq, .inl ?_⟩
      have hgap : 0 < poseGap (objPose t) (objPose d) :=
        lt_of_le_of_ne (Real.sqrt_nonneg _) fun h => hne (poseDistance_eq_zero.1 ((gap_eq _ _).symm.trans h.symm))
      have hL : 0 < √L := by
        by_contra hc
        rw [le_antisymm (not_lt.1 hc) (Real.sqrt_nonneg _), div_zero, zero_mul] at hgD
        have hRε : 0 ≤ R + ε := (Real.sqrt_nonneg _).trans (hnear t ht d hd hlb)
        have : 0 ≤ (R + ε) / √l * (1 + u) := by positivity
        linarith
      have hx : 0 < x := lt_of_lt_of_le (div_pos hgap hL) hxL
      have h1 := (abs_le.1 hq1).1
      have h2 := mul_lt_mul_of_pos_right hu1 hx
      have : (0 : ℝ) < q := by linarith
      exact_mod_cast this

/-- C134: then every track is associated with the detection of its object, and with no other. -/
theorem C134_association {ι : Type} {R ε D u l L : ℝ} (hl : 0 < l) {label : Uuid → ι} {world : ι → Fin 3 → ℝ}
    {ts ds : List MotObj} (hts : ∀ t ∈ ts, poseGap (objPose t) (world (label (TrackOps.uuid t))) ≤ R)
    (hsure : ∀ t ∈ ts, SureWithin l L t)
    (hds : ∀ d ∈ ds, poseGap (objPose d) (world (label (TrackOps.uuid d))) ≤ ε)
    (hkind : ∀ t ∈ ts, ∀ d ∈ ds, label (TrackOps.uuid t) = label (TrackOps.uuid d) → t.isLeft = d.isLeft)
    (hapart : ∀ t ∈ ts, ∀ d ∈ ds, label (TrackOps.uuid t) ≠ label (TrackOps.uuid d) →
      D ≤ poseGap (world (label (TrackOps.uuid t))) (world (label (TrackOps.uuid d))))
    {rd : Option ℝ → FP} {gate : FP → Bool} {g : ℚ} (hu : 0 ≤ u) (hu1 : u < 1)
    (hrd : ∀ x, 0 ≤ x → (∃ q, rd (some x) = .fin q ∧ Near u x q) ∨ ((R + ε) / √l < x ∧ gate (rd (some x)) = true))
    (hg : ∀ q, gate (.fin q) = decide (g < q)) (hg31 : g ≤ 10 ^ 31)
    (hgR : (R + ε) / √l * (1 + u) ≤ g) (hgD : g < (D - (R + ε)) / √L * (1 - u))
    (hT : (ts.map fun x => label (TrackOps.uuid x)).Nodup) (hD : (ds.map fun x => label (TrackOps.uuid x)).Nodup)
    (hdef : (∃ t ∈ ts, ∃ d ∈ ds, ∃ t' ∈ ts, ∃ d' ∈ ds, label (TrackOps.uuid t) = label (TrackOps.uuid d) ∧
        label (TrackOps.uuid t') = label (TrackOps.uuid d') ∧ label (TrackOps.uuid t') ≠ label (TrackOps.uuid t)) ∨
      ∃ t ∈ ts, ∃ d ∈ ds, label (TrackOps.uuid t) = label (TrackOps.uuid d) ∧ objPose t ≠ objPose d)
    (hbig : ts.length * ds.length < 2 ^ 64) {solve : Solver} (hs : IsOptimalSolver solve) :
    ∃ a, associateStep solve (mahalanobisScore (fun s P q => rd (CtrvState.mahalanobis s P q))
        (fun s P q => rd (CtraState.mahalanobis s P q))) gate ts ds = .ok a ∧
      (∀ u v, a.find? u = some [v] ↔ ∃ t ∈ ts, ∃ d ∈ ds,
        TrackOps.uuid t = u ∧ TrackOps.uuid d = v ∧ label u = label v) ∧
      ∀ u l, a.find? u = some l → ∃ v, l = [v] :=
  C102_association hT hD hbig hs
    (C134_apart hl hts hsure hds hkind hapart hu hu1 hrd hg hg31 hgR hgD hdef)

/-- C134 for predicted tracks: `Follows` is that of C131, so the bound `R` is in terms of the tracks before the
prediction; the variances are those of the predicted tracks. -/
theorem C134_predicted {ι : Type} {chol : Chol} (hchol : IsLlt chol) {α β κ k time R ε D u l L : ℝ} (hk0 : 0 ≤ k)
    (hl : 0 < l) {label : Uuid → ι} {world : ι → Fin 3 → ℝ} {ts ts' ds : List MotObj}
    (hpred : List.Forall₂ (fun o o' => predict2 o time (unscentedTransform chol α β κ)
      (unscentedTransform chol α β κ) = .ok o') ts ts')
    (hts : ∀ o ∈ ts, Follows α β k time R o (world (label (TrackOps.uuid o)))) (hsure : ∀ t ∈ ts', SureWithin l L t)
    (hds : ∀ d ∈ ds, poseGap (objPose d) (world (label (TrackOps.uuid d))) ≤ ε)
    (hkind : ∀ o ∈ ts, ∀ d ∈ ds, label (TrackOps.uuid o) = label (TrackOps.uuid d) → o.isLeft = d.isLeft)
    (hapart : ∀ o ∈ ts, ∀ d ∈ ds, label (TrackOps.uuid o) ≠ label (TrackOps.uuid d) →
      D ≤ poseGap (world (label (TrackOps.uuid o))) (world (label (TrackOps.uuid d))))
    {rd : Option ℝ → FP} {gate : FP → Bool} {g : ℚ} (hu : 0 ≤ u) (hu1 : u < 1)
    (hrd : ∀ x, 0 ≤ x → (∃ q, rd (some x) = .fin q ∧ Near u x q) ∨ ((R + ε) / √l < x ∧ gate (rd (some x)) = true))
    (hg : ∀ q, gate (.fin q) = decide (g < q)) (hg31 : g ≤ 10 ^ 31)
    (hgR : (R + ε) / √l * (1 + u) ≤ g) (hgD : g < (D - (R + ε)) / √L * (1 - u))
    (hT : (ts.map fun x => label (TrackOps.uuid x)).Nodup) (hD : (ds.map fun x => label (TrackOps.uuid x)).Nodup)
    (hdef : (∃ t ∈ ts, ∃ d ∈ ds, ∃ t' ∈ ts, ∃ d' ∈ ds, label (TrackOps.uuid t) = label (TrackOps.uuid d) ∧
        label (TrackOps.uuid t') = label (TrackOps.uuid d') ∧ label (TrackOps.uuid t') ≠ label (TrackOps.uuid t)) ∨
      ∃ t ∈ ts', ∃ d ∈ ds, label (TrackOps.uuid t) = label (TrackOps.uuid d) ∧ objPose t ≠ objPose d)
    (hbig : ts.length * ds.length < 2 ^ 64) {solve : Solver} (hs : IsOptimalSolver solve) :
    ∃ a, associateStep solve (mahalanobisScore (fun s P q => rd (CtrvState.mahalanobis s P q))
        (fun s P q => rd (CtraState.mahalanobis s P q))) gate ts' ds = .ok a ∧
      (∀ u v, a.find? u = some [v] ↔ ∃ t ∈ ts, ∃ d ∈ ds,
        TrackOps.uuid t = u ∧ TrackOps.uuid d = v ∧ label u = label v) ∧
      ∀ u l, a.find? u = some l → ∃ v, l = [v] := by
  have key : ∀ {t t' : MotObj}, t ∈ ts → predict2 t time (unscentedTransform chol α β κ)
      (unscentedTransform chol α β κ) = .ok t' → poseGap (objPose t') (world (label (TrackOps.uuid t'))) ≤ R ∧
        TrackOps.uuid t' = TrackOps.uuid t ∧ t'.isLeft = t.isLeft := by
    intro t t' ht h
    obtain ⟨h1, h2, h3⟩ := C131_follows hchol hk0 (hts t ht) h
    exact ⟨h2 ▸ h1, h2, h3⟩
  have hback : ∀ t' ∈ ts', ∃ t ∈ ts, predict2 t time (unscentedTransform chol α β κ)
      (unscentedTransform chol α β κ) = .ok t' := forall_right hpred
  have hfwd : ∀ t ∈ ts, ∃ t' ∈ ts', predict2 t time (unscentedTransform chol α β κ)
      (unscentedTransform chol α β κ) = .ok t' := forall_right hpred.flip
  have hmap : ts'.map (fun x => label (TrackOps.uuid x)) = ts.map fun x => label (TrackOps.uuid x) := by
    have : ∀ {l l' : List MotObj}, List.Forall₂ (fun o o' => predict2 o time (unscentedTransform chol α β κ)
        (unscentedTransform chol α β κ) = .ok o') l l' → (∀ t ∈ l, t ∈ ts) →
        l'.map (fun x => label (TrackOps.uuid x)) = l.map fun x => label (TrackOps.uuid x) := by
      intro l l' h
      induction h with
      | nil => intro _; rfl
      | cons h _ ih =>
        intro hm
        rw [List.map_cons, List.map_cons, ih fun t ht => hm t (List.mem_cons_of_mem _ ht),
          (key (hm _ List.mem_cons_self) h).2.1]
    exact this hpred fun _ h => h
  obtain ⟨a, ha, h1, h2⟩ := C134_association hl (label := label) (world := world) (ts := ts') (ds := ds) (R := R)
    (fun t' ht' => by obtain ⟨t, ht, h⟩ := hback t' ht'; exact (key ht h).1) hsure hds
    (fun t' ht' d hd hlb => by
      obtain ⟨t, ht, h⟩ := hback t' ht'
      obtain ⟨-, h2, h3⟩ := key ht h
      rw [h3]
      exact hkind t ht d hd (h2 ▸ hlb))
    (fun t' ht' d hd hlb => by
      obtain ⟨t, ht, h⟩ := hback t' ht'
      obtain ⟨-, h2, h3⟩ := key ht h
      rw [h2] at hlb ⊢
      exact hapart t ht d hd hlb) hu hu1 hrd hg hg31 hgR hgD (by rw [hmap]; exact hT) hD (by
      rcases hdef with ⟨t, ht, d, hd, t₂, ht₂, d₂, hd₂, h1, h2, h3⟩ | h
      · obtain ⟨e, he, hp⟩ := hfwd t ht
        obtain ⟨e₂, he₂, hp₂⟩ := hfwd t₂ ht₂
        refine .inl ⟨e, he, d, hd, e₂, he₂, d₂, hd₂, ?_, ?_, ?_⟩
        · rw [(key ht hp).2.1]; exact h1
        · rw [(key ht₂ hp₂).2.1]; exact h2
        · rw [(key ht hp).2.1, (key ht₂ hp₂).2.1]; exact h3
      · exact .inr h) (by rw [← hpred.length_eq]; exact hbig) hs
  refine ⟨a, ha, fun u v => (h1 u v).trans ⟨?_, ?_⟩, h2⟩
  · rintro ⟨t', ht', d, hd, hu, hv⟩
    obtain ⟨t, ht, h⟩ := hback t' ht'
    exact ⟨t, ht, d, hd, (key ht h).2.1 ▸ hu, hv⟩
  · rintro ⟨t, ht, d, hd, hu, hv⟩
    obtain ⟨t', ht', h⟩ := hfwd t ht
    exact ⟨t', ht', d, hd, (key ht h).2.1.trans hu, hv⟩

/-- C134, for a whole period, in which tracks and detections are predicted: if both are right to within some numbers
of standard deviations (`k` and `k'`) and the gate is chosen as above, the period completes, and what it does with an
object is what a tracker for that object alone would do.  `Shows`, `Only` and `SoloStep` are those of C102. -/
theorem C134_period {ι : Type} {chol : Chol} (hchol : IsLlt chol) {α β κ k k' time R ε D u l L : ℝ} (hk0 : 0 ≤ k)
    (hk0' : 0 ≤ k') (hl : 0 < l) {label : Uuid → ι} {world : ι → Fin 3 → ℝ} {n : ℕ} {m : Manager MotObj}
    (hr : ReachableIn _ _ n m) (hn : n + 3 < 2 ^ 64) {ds ts' ds' : List MotObj}
    (ht : List.Forall₂ (fun o o' => predict2 o time (unscentedTransform chol α β κ)
      (unscentedTransform chol α β κ) = .ok o') m.getAllTracks ts')
    (hd : List.Forall₂ (fun o o' => predict2 o time (unscentedTransform chol α β κ)
      (unscentedTransform chol α β κ) = .ok o') ds ds')
    (hts : ∀ o ∈ m.getAllTracks, Follows α β k time R o (world (label (TrackOps.uuid o))))
    (hsure : ∀ t ∈ ts', SureWithin l L t)
    (hds : ∀ d ∈ ds, Follows α β k' time ε d (world (label (TrackOps.uuid d))))
    (hkind : ∀ o ∈ m.getAllTracks, ∀ d ∈ ds, label (TrackOps.uuid o) = label (TrackOps.uuid d) → o.isLeft = d.isLeft)
    (hapart : ∀ o ∈ m.getAllTracks, ∀ d ∈ ds, label (TrackOps.uuid o) ≠ label (TrackOps.uuid d) →
      D ≤ poseGap (world (label (TrackOps.uuid o))) (world (label (TrackOps.uuid d))))
    {rd : Option ℝ → FP} {gate : FP → Bool} {g : ℚ} (hu : 0 ≤ u) (hu1 : u < 1)
    (hrd : ∀ x, 0 ≤ x → (∃ q, rd (some x) = .fin q ∧ Near u x q) ∨ ((R + ε) / √l < x ∧ gate (rd (some x)) = true))
    (hg : ∀ q, gate (.fin q) = decide (g < q)) (hg31 : g ≤ 10 ^ 31)
    (hgR : (R + ε) / √l * (1 + u) ≤ g) (hgD : g < (D - (R + ε)) / √L * (1 - u))
    (hone : ∀ o, ∃ x, Only m.getAllTracks label o x) (hD : (ds.map fun x => label (TrackOps.uuid x)).Nodup)
    (hdef : (∃ t ∈ ts', ∃ d ∈ ds', ∃ t' ∈ ts', ∃ d' ∈ ds', label (TrackOps.uuid t) = label (TrackOps.uuid d) ∧
        label (TrackOps.uuid t') = label (TrackOps.uuid d') ∧ label (TrackOps.uuid t') ≠ label (TrackOps.uuid t)) ∨
      ∃ t ∈ ts', ∃ d ∈ ds', label (TrackOps.uuid t) = label (TrackOps.uuid d) ∧ objPose t ≠ objPose d)
    (hbig : m.getAllTracks.length * ds.length < 2 ^ 64) {solve : Solver} (hs : IsOptimalSolver solve)
    (hf : ∀ t ∈ ts', ∀ d ∈ ds', label (TrackOps.uuid t) = label (TrackOps.uuid d) → (ciVisitor t d).IsOk) :
    ∃ m' a, period solve (mahalanobisScore (fun s P q => rd (CtrvState.mahalanobis s P q))
        (fun s P q => rd (CtraState.mahalanobis s P q))) gate ciVisitor
        makeTrack2 (fun o => predict2 o time (unscentedTransform chol α β κ) (unscentedTransform chol α β κ)) ds m =
        (m', .ok a) ∧
      ∀ o x d, Shows m label o x → Only ds label o d → ∃ x', SoloStep ciVisitor makeTrack2
        (fun o => predict2 o time (unscentedTransform chol α β κ) (unscentedTransform chol α β κ))
        m.promo.toNat m.removal.toNat x d x' ∧ Shows m' label o x' := by
  have kt : ∀ t' ∈ ts', ∃ t ∈ m.getAllTracks, poseGap (objPose t') (world (label (TrackOps.uuid t'))) ≤ R ∧
      TrackOps.uuid t' = TrackOps.uuid t ∧ t'.isLeft = t.isLeft := by
    intro t' ht'
    obtain ⟨t, htm, h⟩ := forall_right ht t' ht'
    obtain ⟨h1, h2, h3⟩ := C131_follows hchol hk0 (hts t htm) h
    exact ⟨t, htm, h2 ▸ h1, h2, h3⟩
  have kd : ∀ d' ∈ ds', ∃ d ∈ ds, poseGap (objPose d') (world (label (TrackOps.uuid d'))) ≤ ε ∧
      TrackOps.uuid d' = TrackOps.uuid d ∧ d'.isLeft = d.isLeft := by
    intro d' hd'
    obtain ⟨d, hdm, h⟩ := forall_right hd d' hd'
    obtain ⟨h1, h2, h3⟩ := C131_follows hchol hk0' (hds d hdm) h
    exact ⟨d, hdm, h2 ▸ h1, h2, h3⟩
  have hap := C134_apart hl (label := label) (world := world) (D := D) (ts := ts') (ds := ds')
    (fun t' ht' => (kt t' ht').elim fun _ h => h.2.1) hsure (fun d' hd' => (kd d' hd').elim fun _ h => h.2.1)
    (fun t' ht' d' hd' hlb => by
      obtain ⟨t, htm, -, h2, h3⟩ := kt t' ht'
      obtain ⟨d, hdm, -, h4, h5⟩ := kd d' hd'
      rw [h3, h5]
      rw [h2, h4] at hlb
      exact hkind t htm d hdm hlb)
    (fun t' ht' d' hd' hlb => by
      obtain ⟨t, htm, -, h2, -⟩ := kt t' ht'
      obtain ⟨d, hdm, -, h4, -⟩ := kd d' hd'
      rw [h2, h4] at hlb ⊢
      exact hapart t htm d hdm hlb) hu hu1 hrd hg hg31 hgR hgD hdef
  obtain ⟨m', a, hp, -, -, h⟩ := C102_period hr hn hs ciVisitor_same
    (align := fun o => predict2 o time (unscentedTransform chol α β κ) (unscentedTransform chol α β κ))
    (fun o o' h => predict2_same h) hone hD hbig ht hd hap hf
  exact ⟨m', a, hp, h⟩

/-! ### Without bounds for the variances -/

/-- a CTRV object at `10 s`, at `x` on the x axis, that moves north at 5 m/s, with the standard deviation `σ` in
every variable -/
noncomputable def sureTrack (x σ : ℝ) (u : Uuid) : DynObj CtrvState CtrvCov :=
  ⟨10, ⟨x, 0, 5, Angle.ofRad (π / 2), 0⟩, diagonal fun _ => σ ^ 2, u, .unknown⟩

theorem sureTrack_sure (x : ℝ) {σ : ℝ} (hσ : 0 < σ) (u : Uuid) : SureWithin (σ ^ 2) (σ ^ 2) (.inl (sureTrack x σ u)) := by
  refine ⟨Matrix.PosDef.diagonal fun i => by positivity, fun w => ?_⟩
  have : w ⬝ᵥ (poseBlock (n := 1) (sureTrack x σ u).covariance *ᵥ w) = σ ^ 2 * (w ⬝ᵥ w) := by
    simp [sureTrack, poseBlock, dotProduct, mulVec, Fin.sum_univ_three, diagonal_apply]
    ring
  rw [this]
  exact ⟨le_rfl, le_rfl⟩

theorem sureTrack_gap (x y σ τ : ℝ) (u v : Uuid) :
    poseGap (objPose (.inl (sureTrack x σ u))) (objPose (.inl (sureTrack y τ v))) = |x - y| := by
  simp [poseGap, objPose, sureTrack, Real.sqrt_sq_eq_abs]

/-- C134: distances alone are not enough.  For every gate `g`, every rounding that is right up to a fraction and
every `K` there are two tracks, one a metre from a detection and one `K` metres from it, such that the detection is
associated with the one `K` metres away and the other gets none. -/
theorem C134_wrong {u : ℝ} (hu : 0 ≤ u) (hu1 : u < 1) {rd : Option ℝ → FP}
    (hrd : ∀ x, 0 ≤ x → ∃ q, rd (some x) = .fin q ∧ Near u x q) {gate : FP → Bool} {g : ℚ} (hg0 : 0 < g)
    (hg : ∀ q, gate (.fin q) = decide (g < q)) (hg31 : g ≤ 10 ^ 31) {K : ℝ} (hK : 0 < K) {solve : Solver}
    (hs : IsOptimalSolver solve) :
    ∃ σ > 0, ∃ τ > 0, ∃ a, associateStep solve (mahalanobisScore (fun s P q => rd (CtrvState.mahalanobis s P q))
        (fun s P q => rd (CtraState.mahalanobis s P q))) gate
        [(.inl (sureTrack 0 σ ⟨[1]⟩) : MotObj), .inl (sureTrack (1 + K) τ ⟨[1, 1]⟩)] [.inl (sureTrack 1 1 ⟨[2]⟩)] = .ok a ∧
      a.find? ⟨[1, 1]⟩ = some [⟨[2]⟩] ∧ a.find? ⟨[1]⟩ = none := by
  have hgr : (0 : ℝ) < g := by exact_mod_cast hg0
  set σ : ℝ := (1 - u) / (2 * g) with hσ
  set τ : ℝ := K * (1 + u) / g with hτ
  have hσ0 : 0 < σ := div_pos (by linarith) (by positivity)
  have hτ0 : 0 < τ := by positivity
  set A : MotObj := .inl (sureTrack 0 σ ⟨[1]⟩) with hA
  set B : MotObj := .inl (sureTrack (1 + K) τ ⟨[1, 1]⟩) with hB
  set d : MotObj := .inl (sureTrack 1 1 ⟨[2]⟩) with hd
  set metric : MotObj → MotObj → Option FP := mahalanobisScore (fun s P q => rd (CtrvState.mahalanobis s P q))
    (fun s P q => rd (CtraState.mahalanobis s P q)) with hmetric
  set label : Uuid → ℕ := fun v => if v = ⟨[1]⟩ then 0 else 1 with hlabel
  have lA : label (TrackOps.uuid A) = 0 := rfl
  have lB : label (TrackOps.uuid B) = 1 := rfl
  have ld : label (TrackOps.uuid d) = 1 := rfl
  have hAs : ∀ s, ¬ Survives metric gate A d s := by
    rintro s ⟨h1, h2⟩
    obtain ⟨x, hx, hx0, -, hxL⟩ := score_between rd (t := A) (d := d) rfl (by positivity) (sureTrack_sure 0 hσ0 ⟨[1]⟩)
    rw [sureTrack_gap, Real.sqrt_sq hσ0.le, zero_sub, abs_neg, abs_one, div_le_iff₀ hσ0] at hxL
    rw [hmetric, hx] at h1
    cases h1
    obtain ⟨q, hq, -, hq1⟩ := hrd x hx0
    rw [hq, hg, decide_eq_false_iff_not, not_lt] at h2
    have h3 : (q : ℝ) ≤ g := by exact_mod_cast h2
    have h4 := (abs_le.1 hq1).1
    have h5 : x * (1 - u) ≤ g := by linarith
    rw [hσ, mul_div_assoc', le_div_iff₀ (by positivity)] at hxL
    linarith
  have hBs : ∃ q : ℚ, Survives metric gate B d (.fin q) ∧ 0 < q ∧ ∀ s, Survives metric gate B d s → s = .fin q := by
    obtain ⟨x, hx, hx0, hxl, hxL⟩ := score_between rd (t := B) (d := d) rfl (by positivity)
      (sureTrack_sure (1 + K) hτ0 ⟨[1, 1]⟩)
    rw [sureTrack_gap, Real.sqrt_sq hτ0.le, add_sub_cancel_left, abs_of_pos hK] at hxl hxL
    have hxe : x = K / τ := le_antisymm hxl hxL
    have hxu : x * (1 + u) = g := by
      rw [hxe, hτ]
      have : (1 : ℝ) + u ≠ 0 := by positivity
      field_simp
    have hxp : 0 < x := by rw [hxe]; positivity
    obtain ⟨q, hq, -, hq1⟩ := hrd x hx0
    have h4 := abs_le.1 hq1
    refine ⟨q, ⟨by rw [hmetric, hx, hq], ?_⟩, ?_, ?_⟩
    · rw [hg, decide_eq_false_iff_not, not_lt]
      have : (q : ℝ) ≤ g := by linarith [h4.2]
      exact_mod_cast this
    · have h2 := mul_lt_mul_of_pos_right hu1 hxp
      have : (0 : ℝ) < q := by linarith [h4.1]
      exact_mod_cast this
    · rintro s ⟨h1, -⟩
      rw [hmetric, hx, hq] at h1
      cases h1
      rfl
  obtain ⟨q, hq, hq0, hqs⟩ := hBs
  have hap : Apart label metric gate [A, B] [d] := by
    refine .inl ⟨?_, ?_, ?_⟩
    · simp only [List.mem_cons, List.not_mem_nil, or_false, forall_eq_or_imp, forall_eq]
      rw [lA, lB, ld]
      exact ⟨⟨fun ⟨s, h⟩ => absurd h (hAs s), fun h => absurd h (by norm_num)⟩, fun _ => rfl, fun _ => ⟨_, hq⟩⟩
    · simp only [List.mem_cons, List.not_mem_nil, or_false, forall_eq_or_imp, forall_eq]
      refine ⟨fun s h => absurd h (hAs s), fun s h => ⟨q, hqs s h, hq0.le, ?_⟩⟩
      have := hq.2
      rw [hg, decide_eq_false_iff_not, not_lt] at this
      exact this.trans hg31
    · exact ⟨B, by simp, d, by simp, q, hq, .inl hq0⟩
  obtain ⟨a, ha, h1, h2⟩ := C102_association (label := label) (ts := [A, B]) (ds := [d])
    (by simp only [List.map_cons, List.map_nil]; rw [lA, lB]; decide) (by simp) (by simp) hs hap
  refine ⟨σ, hσ0, τ, hτ0, a, ha, (h1 _ _).2 ⟨B, by simp, d, by simp, rfl, rfl, rfl⟩, ?_⟩
  by_contra hne
  obtain ⟨l, hl⟩ := Option.ne_none_iff_exists'.1 hne
  obtain ⟨v, rfl⟩ := h2 _ _ hl
  obtain ⟨t, -, e, he, -, hv, hlb⟩ := (h1 _ _).1 hl
  rw [List.mem_singleton] at he
  rw [← hv, he, ld] at hlb
  cases hlb

/-! ### Hypotheses -/

/-- Two tracks a kilometre apart with standard deviations of 0.1 and 0.2, and detections a tenth of a metre off. -/
example {solve : Solver} (hs : IsOptimalSolver solve) :
    ∃ (rd : Option ℝ → FP) (a : AssociationMap),
      associateStep solve (mahalanobisScore (fun s P q => rd (CtrvState.mahalanobis s P q))
        (fun s P q => rd (CtraState.mahalanobis s P q))) gateAtTen
        [(.inl (sureTrack 0 (1 / 10) ⟨[1]⟩) : MotObj), .inl (sureTrack 1000 (1 / 5) ⟨[1, 1]⟩)]
        [.inl (sureTrack (1000 + 1 / 10) 1 ⟨[2, 2]⟩), .inl (sureTrack (1 / 10) 1 ⟨[2]⟩)] = .ok a ∧
      a.find? ⟨[1]⟩ = some [⟨[2]⟩] ∧ a.find? ⟨[1, 1]⟩ = some [⟨[2, 2]⟩] := by
  obtain ⟨rd, hrd⟩ := exists_rounding
  set label : Uuid → ℕ := fun u => u.value.length with hlabel
  set world : ℕ → Fin 3 → ℝ := fun n => if n = 1 then objPose (.inl (sureTrack 0 1 ⟨[1]⟩))
    else objPose (.inl (sureTrack 1000 1 ⟨[1]⟩)) with hworld
  have w1 : world 1 = objPose (.inl (sureTrack 0 1 ⟨[1]⟩)) := rfl
  have w2 : world 2 = objPose (.inl (sureTrack 1000 1 ⟨[1]⟩)) := rfl
  have l1 : ∀ x σ n, label (TrackOps.uuid (.inl (sureTrack x σ ⟨[n]⟩) : MotObj)) = 1 := fun _ _ _ => rfl
  have l2 : ∀ x σ n m, label (TrackOps.uuid (.inl (sureTrack x σ ⟨[n, m]⟩) : MotObj)) = 2 := fun _ _ _ _ => rfl
  have hs10 : √(((1 : ℝ) / 10) ^ 2) = 1 / 10 := Real.sqrt_sq (by norm_num)
  have hs5 : √(((1 : ℝ) / 5) ^ 2) = 1 / 5 := Real.sqrt_sq (by norm_num)
  have hmono : ∀ x u {σ : ℝ}, 1 / 10 ≤ σ → σ ≤ 1 / 5 → SureWithin ((1 / 10) ^ 2) ((1 / 5) ^ 2) (.inl (sureTrack x σ u)) := by
    intro x u σ h1 h2
    obtain ⟨hP, h⟩ := sureTrack_sure x (show 0 < σ by linarith) u
    refine ⟨hP, fun w => ?_⟩
    have hw : 0 ≤ w ⬝ᵥ w := by
      simp only [dotProduct, Fin.sum_univ_three]
      nlinarith [sq_nonneg (w 0), sq_nonneg (w 1), sq_nonneg (w 2)]
    exact ⟨(mul_le_mul_of_nonneg_right (by nlinarith) hw).trans (h w).1,
      (h w).2.trans (mul_le_mul_of_nonneg_right (by nlinarith) hw)⟩
  set ts : List MotObj := [.inl (sureTrack 0 (1 / 10) ⟨[1]⟩), .inl (sureTrack 1000 (1 / 5) ⟨[1, 1]⟩)] with hts
  set ds : List MotObj := [.inl (sureTrack (1000 + 1 / 10) 1 ⟨[2, 2]⟩), .inl (sureTrack (1 / 10) 1 ⟨[2]⟩)] with hds
  have mt₁ : .inl (sureTrack 0 (1 / 10) ⟨[1]⟩) ∈ ts := List.mem_cons_self
  have mt₂ : .inl (sureTrack 1000 (1 / 5) ⟨[1, 1]⟩) ∈ ts := List.mem_cons_of_mem _ List.mem_cons_self
  have md₂ : .inl (sureTrack (1000 + 1 / 10) 1 ⟨[2, 2]⟩) ∈ ds := List.mem_cons_self
  have md₁ : .inl (sureTrack (1 / 10) 1 ⟨[2]⟩) ∈ ds := List.mem_cons_of_mem _ List.mem_cons_self
  have k1 : ∀ t ∈ ts, poseGap (objPose t) (world (label (TrackOps.uuid t))) ≤ 0 := by
    simp only [hts, List.mem_cons, List.not_mem_nil, or_false, forall_eq_or_imp, forall_eq, l1, l2, w1, w2, sureTrack_gap]
    norm_num
  have k2 : ∀ t ∈ ts, SureWithin ((1 / 10) ^ 2) ((1 / 5) ^ 2) t := by
    simp only [hts, List.mem_cons, List.not_mem_nil, or_false, forall_eq_or_imp, forall_eq]
    exact ⟨hmono _ _ (by norm_num) (by norm_num), hmono _ _ (by norm_num) (by norm_num)⟩
  have k3 : ∀ d ∈ ds, poseGap (objPose d) (world (label (TrackOps.uuid d))) ≤ 1 / 10 := by
    simp only [hds, List.mem_cons, List.not_mem_nil, or_false, forall_eq_or_imp, forall_eq, l1, l2, w1, w2, sureTrack_gap]
    norm_num
  have k4 : ∀ t ∈ ts, ∀ d ∈ ds, label (TrackOps.uuid t) = label (TrackOps.uuid d) → t.isLeft = d.isLeft := by
    simp only [hts, hds, List.mem_cons, List.not_mem_nil, or_false, forall_eq_or_imp, forall_eq]
    exact ⟨⟨fun _ => rfl, fun _ => rfl⟩, fun _ => rfl, fun _ => rfl⟩
  have k5 : ∀ t ∈ ts, ∀ d ∈ ds, label (TrackOps.uuid t) ≠ label (TrackOps.uuid d) →
      1000 ≤ poseGap (world (label (TrackOps.uuid t))) (world (label (TrackOps.uuid d))) := by
    simp only [hts, hds, List.mem_cons, List.not_mem_nil, or_false, forall_eq_or_imp, forall_eq, l1, l2, w1, w2,
      sureTrack_gap]
    norm_num
  have hT : ts.map (fun x => label (TrackOps.uuid x)) = [1, 2] := rfl
  have hD : ds.map (fun x => label (TrackOps.uuid x)) = [2, 1] := rfl
  obtain ⟨a, ha, h1, -⟩ := C134_association (u := 1 / 2) (rd := fun x => rd (x.getD 0)) (gate := gateAtTen) (g := 10)
    (by norm_num) k1 k2 k3 k4 k5 (by norm_num) (by norm_num) (fun x hx => .inl (hrd x hx)) (fun _ => rfl) (by norm_num)
    (by rw [hs10]; norm_num) (by rw [hs5]; norm_num) (by rw [hT]; decide) (by rw [hD]; decide)
    (.inl ⟨_, mt₁, _, md₁, _, mt₂, _, md₂, rfl, rfl, by show 2 ≠ 1; decide⟩) (by simp [hts, hds]) hs
  exact ⟨fun x => rd (x.getD 0), a, ha, (h1 _ _).2 ⟨_, mt₁, _, md₁, rfl, rfl, rfl⟩,
    (h1 _ _).2 ⟨_, mt₂, _, md₂, rfl, rfl, rfl⟩⟩

/-- a gate at 10: the track 1000 m away gets the detection -/
example {solve : Solver} (hs : IsOptimalSolver solve) {K : ℝ} (hK : K = 1000) :
    ∃ (rd : Option ℝ → FP) (σ τ : ℝ) (a : AssociationMap),
      associateStep solve (mahalanobisScore (fun s P q => rd (CtrvState.mahalanobis s P q))
        (fun s P q => rd (CtraState.mahalanobis s P q))) gateAtTen
        [(.inl (sureTrack 0 σ ⟨[1]⟩) : MotObj), .inl (sureTrack (1 + K) τ ⟨[1, 1]⟩)] [.inl (sureTrack 1 1 ⟨[2]⟩)] = .ok a ∧
      a.find? ⟨[1, 1]⟩ = some [⟨[2]⟩] ∧ a.find? ⟨[1]⟩ = none := by
  obtain ⟨rd, hrd⟩ := exists_rounding
  obtain ⟨σ, -, τ, -, a, h⟩ := C134_wrong (u := 1 / 2) (by norm_num) (by norm_num) (rd := fun x => rd (x.getD 0))
    (fun x hx => hrd x hx) (gate := gateAtTen) (g := 10) (by norm_num) (fun _ => rfl) (by norm_num) (K := K)
    (by rw [hK]; norm_num) hs
  exact ⟨fun x => rd (x.getD 0), σ, τ, a, h⟩

/-- a gate at 100 -/
def gateAtHundred : FP → Bool
  | .fin q => decide (100 < q)
  | _ => true

/-- the hypotheses for predicted tracks, met by the tracks of C131 -/
example {chol : Chol} (hchol : IsLlt chol) {solve : Solver} (hs : IsOptimalSolver solve) :
    ∃ (rd : Option ℝ → FP) (ts' : List MotObj) (a : AssociationMap), List.Forall₂ (fun o o' => predict2 o 10
        (unscentedTransform chol 1 2 1) (unscentedTransform chol 1 2 1) = .ok o')
        [.inl (gateTrack 0 ⟨[1]⟩), .inl (gateTrack 1000 ⟨[1, 1]⟩)] ts' ∧
      associateStep solve (mahalanobisScore (fun s P q => rd (CtrvState.mahalanobis s P q))
        (fun s P q => rd (CtraState.mahalanobis s P q))) gateAtHundred ts'
        [.inl (gateTrack 1000 ⟨[2, 2]⟩), .inl (gateTrack 0 ⟨[2]⟩)] = .ok a ∧
      a.find? ⟨[1]⟩ = some [⟨[2]⟩] ∧ a.find? ⟨[1, 1]⟩ = some [⟨[2, 2]⟩] := by
  have hpi := Real.pi_gt_three
  have hpi' := Real.pi_lt_d2
  have hcut := yawCut_bounds
  obtain ⟨rd, hrd⟩ := exists_rounding
  have hP : ∀ x u, (gateTrack x u).covariance.PosDef := fun x u => Matrix.PosDef.diagonal fun i => by norm_num
  have hhalf : (Angle.ofRad (π / 2)).getAngle = π / 2 :=
    Angle.getAngle_ofRad_of_range ⟨by linarith, by linarith⟩
  have h7 : √(7 * ((1 : ℝ) / 10) ^ 2) ≤ 1 / 2 := by
    rw [Real.sqrt_le_left (by norm_num)]; norm_num
  have hp : ∀ x u, predict2 (.inl (gateTrack x u) : MotObj) 10 (unscentedTransform chol 1 2 1)
      (unscentedTransform chol 1 2 1) = .ok (.inl (gateTrack x u)) := by
    intro x u
    have h : predict (gateTrack x u) 10 (defaultUt chol) = .ok (gateTrack x u) :=
      C41_ctrv_partial hchol (gateTrack x u) (Angle.valid_ofRad _) (hP x u)
        (by simp only [gateTrack, hhalf, diagonal_apply_eq]; linarith)
        (by simp only [gateTrack, hhalf, diagonal_apply_eq]; linarith)
    rw [defaultUt, predict] at h
    rw [predict2, propagate2]
    generalize propagate 10 (unscentedTransform chol 1 2 1) (gateTrack x u) = z at h ⊢
    rcases z with ⟨q, ⟨⟩ | _ | _⟩
    · cases h; rfl
    · cases h
    · cases h
  have hgap : ∀ x y u v, poseGap (objPose (.inl (gateTrack x u))) (objPose (.inl (gateTrack y v))) = |x - y| :=
    fun x y u v => sureTrack_gap x y (1 / 10) (1 / 10) u v
  have hs10 : √(((1 : ℝ) / 10) ^ 2) = 1 / 10 := Real.sqrt_sq (by norm_num)
  set label : Uuid → ℕ := fun u => u.value.length with hlabel
  set world : ℕ → Fin 3 → ℝ := fun n => if n = 1 then objPose (.inl (gateTrack 0 ⟨[1]⟩))
    else objPose (.inl (gateTrack 1000 ⟨[1]⟩)) with hworld
  have w1 : world 1 = objPose (.inl (gateTrack 0 ⟨[1]⟩)) := rfl
  have w2 : world 2 = objPose (.inl (gateTrack 1000 ⟨[1]⟩)) := rfl
  have l1 : ∀ x n, label (TrackOps.uuid (.inl (gateTrack x ⟨[n]⟩) : MotObj)) = 1 := fun _ _ => rfl
  have l2 : ∀ x n m, label (TrackOps.uuid (.inl (gateTrack x ⟨[n, m]⟩) : MotObj)) = 2 := fun _ _ _ => rfl
  set ts : List MotObj := [.inl (gateTrack 0 ⟨[1]⟩), .inl (gateTrack 1000 ⟨[1, 1]⟩)] with hts
  set ds : List MotObj := [.inl (gateTrack 1000 ⟨[2, 2]⟩), .inl (gateTrack 0 ⟨[2]⟩)] with hds
  have hpred : List.Forall₂ (fun o o' => predict2 o 10 (unscentedTransform chol 1 2 1)
      (unscentedTransform chol 1 2 1) = .ok o') ts ts := .cons (hp _ _) (.cons (hp _ _) .nil)
  have mt₁ : .inl (gateTrack 0 ⟨[1]⟩) ∈ ts := List.mem_cons_self
  have mt₂ : .inl (gateTrack 1000 ⟨[1, 1]⟩) ∈ ts := List.mem_cons_of_mem _ List.mem_cons_self
  have md₂ : .inl (gateTrack 1000 ⟨[2, 2]⟩) ∈ ds := List.mem_cons_self
  have md₁ : .inl (gateTrack 0 ⟨[2]⟩) ∈ ds := List.mem_cons_of_mem _ List.mem_cons_self
  have k1 : ∀ o ∈ ts, Follows 1 2 1 10 3 o (world (label (TrackOps.uuid o))) := by
    simp only [hts, List.mem_cons, List.not_mem_nil, or_false, forall_eq_or_imp, forall_eq]
    exact ⟨gateTrack_follows_now 0 ⟨[1]⟩, gateTrack_follows_now 1000 ⟨[1, 1]⟩⟩
  have k2 : ∀ t ∈ ts, SureWithin ((1 / 10) ^ 2) ((1 / 10) ^ 2) t := by
    simp only [hts, List.mem_cons, List.not_mem_nil, or_false, forall_eq_or_imp, forall_eq]
    exact ⟨sureTrack_sure 0 (by norm_num) ⟨[1]⟩, sureTrack_sure 1000 (by norm_num) ⟨[1, 1]⟩⟩
  have k3 : ∀ d ∈ ds, poseGap (objPose d) (world (label (TrackOps.uuid d))) ≤ 0 := by
    simp only [hds, List.mem_cons, List.not_mem_nil, or_false, forall_eq_or_imp, forall_eq, l1, l2, w1, w2, hgap]
    norm_num
  have k4 : ∀ t ∈ ts, ∀ d ∈ ds, label (TrackOps.uuid t) = label (TrackOps.uuid d) → t.isLeft = d.isLeft := by
    simp only [hts, hds, List.mem_cons, List.not_mem_nil, or_false, forall_eq_or_imp, forall_eq]
    exact ⟨⟨fun _ => rfl, fun _ => rfl⟩, fun _ => rfl, fun _ => rfl⟩
  have k5 : ∀ t ∈ ts, ∀ d ∈ ds, label (TrackOps.uuid t) ≠ label (TrackOps.uuid d) →
      1000 ≤ poseGap (world (label (TrackOps.uuid t))) (world (label (TrackOps.uuid d))) := by
    simp only [hts, hds, List.mem_cons, List.not_mem_nil, or_false, forall_eq_or_imp, forall_eq, l1, l2, w1, w2, hgap]
    norm_num
  have hT : ts.map (fun x => label (TrackOps.uuid x)) = [1, 2] := rfl
  have hD : ds.map (fun x => label (TrackOps.uuid x)) = [2, 1] := rfl
  obtain ⟨a, ha, h1, -⟩ := C134_predicted hchol (u := 1 / 2) (rd := fun x => rd (x.getD 0)) (gate := gateAtHundred)
    (g := 100) zero_le_one (by norm_num) hpred k1 k2 k3 k4 k5 (by norm_num) (by norm_num) (fun x hx => .inl (hrd x hx))
    (fun _ => rfl) (by norm_num) (by rw [hs10]; norm_num) (by rw [hs10]; norm_num) (by rw [hT]; decide)
    (by rw [hD]; decide) (.inl ⟨_, mt₁, _, md₁, _, mt₂, _, md₂, rfl, rfl, by show 2 ≠ 1; decide⟩)
    (by simp [hts, hds]) hs
  exact ⟨fun x => rd (x.getD 0), ts, a, hpred, ha, (h1 _ _).2 ⟨_, mt₁, _, md₁, rfl, rfl, rfl⟩,
    (h1 _ _).2 ⟨_, mt₂, _, md₂, rfl, rfl, rfl⟩⟩

/-- `C134_period`: both objects are detected, and the period completes. -/
example {chol : Chol} (hchol : IsLlt chol) {solve : Solver} (hs : IsOptimalSolver solve) :
    ∃ (rd : Option ℝ → FP) (m' : Manager MotObj) (a : AssociationMap), period solve
        (mahalanobisScore (fun s P q => rd (CtrvState.mahalanobis s P q))
        (fun s P q => rd (CtraState.mahalanobis s P q))) gateAtHundred ciVisitor makeTrack2
        (fun o => predict2 o 10 (unscentedTransform chol 1 2 1) (unscentedTransform chol 1 2 1))
        [.inl (gateTrack 1000 ⟨[2, 2]⟩), .inl (gateTrack 0 ⟨[2]⟩)] gateManager = (m', .ok a) := by
  have hpi := Real.pi_gt_three
  have hpi' := Real.pi_lt_d2
  have hcut := yawCut_bounds
  obtain ⟨rd, hrd⟩ := exists_rounding
  have hP : ∀ x u, (gateTrack x u).covariance.PosDef := fun x u => Matrix.PosDef.diagonal fun i => by norm_num
  have hhalf : (Angle.ofRad (π / 2)).getAngle = π / 2 :=
    Angle.getAngle_ofRad_of_range ⟨by linarith, by linarith⟩
  have h7 : √(7 * ((1 : ℝ) / 10) ^ 2) ≤ 1 / 2 := by
    rw [Real.sqrt_le_left (by norm_num)]; norm_num
  have hp : ∀ x u, predict2 (.inl (gateTrack x u) : MotObj) 10 (unscentedTransform chol 1 2 1)
      (unscentedTransform chol 1 2 1) = .ok (.inl (gateTrack x u)) := by
    intro x u
    have h : predict (gateTrack x u) 10 (defaultUt chol) = .ok (gateTrack x u) :=
      C41_ctrv_partial hchol (gateTrack x u) (Angle.valid_ofRad _) (hP x u)
        (by simp only [gateTrack, hhalf, diagonal_apply_eq]; linarith)
        (by simp only [gateTrack, hhalf, diagonal_apply_eq]; linarith)
    rw [defaultUt, predict] at h
    rw [predict2, propagate2]
    generalize propagate 10 (unscentedTransform chol 1 2 1) (gateTrack x u) = z at h ⊢
    rcases z with ⟨q, ⟨⟩ | _ | _⟩
    · cases h; rfl
    · cases h
    · cases h
  have hfar : ∀ u v, 1000 ≤ poseGap (objPose (.inl (gateTrack 0 u))) (objPose (.inl (gateTrack 1000 v))) := by
    intro u v
    refine Real.le_sqrt_of_sq_le ?_
    simp [objPose, gateTrack]
  set label : Uuid → ℕ := fun u => u.value.length with hlabel
  set world : ℕ → Fin 3 → ℝ := fun n => if n = 1 then objPose (.inl (gateTrack 0 ⟨[1]⟩))
    else objPose (.inl (gateTrack 1000 ⟨[1]⟩)) with hworld
  set ds : List MotObj := [.inl (gateTrack 1000 ⟨[2, 2]⟩), .inl (gateTrack 0 ⟨[2]⟩)] with hds
  have mt₁ : .inl (gateTrack 0 ⟨[1]⟩) ∈ gateManager.getAllTracks := List.mem_cons_self
  have mt₂ : .inl (gateTrack 1000 ⟨[1, 1]⟩) ∈ gateManager.getAllTracks := List.mem_cons_of_mem _ List.mem_cons_self
  have md₂ : .inl (gateTrack 1000 ⟨[2, 2]⟩) ∈ ds := List.mem_cons_self
  have md₁ : .inl (gateTrack 0 ⟨[2]⟩) ∈ ds := List.mem_cons_of_mem _ List.mem_cons_self
  have k1 : ∀ o ∈ gateManager.getAllTracks, Follows 1 2 1 10 3 o (world (label (TrackOps.uuid o))) := by
    simp only [gateManager_tracks, List.mem_cons, List.not_mem_nil, or_false, forall_eq_or_imp, forall_eq]
    exact ⟨gateTrack_follows_now 0 ⟨[1]⟩, gateTrack_follows_now 1000 ⟨[1, 1]⟩⟩
  have k2 : ∀ d ∈ ds, Follows 1 2 1 10 3 d (world (label (TrackOps.uuid d))) := by
    simp only [hds, List.mem_cons, List.not_mem_nil, or_false, forall_eq_or_imp, forall_eq]
    exact ⟨gateTrack_follows_now 1000 ⟨[2, 2]⟩, gateTrack_follows_now 0 ⟨[2]⟩⟩
  have k3 : ∀ o ∈ gateManager.getAllTracks, ∀ d ∈ ds, label (TrackOps.uuid o) = label (TrackOps.uuid d) →
      o.isLeft = d.isLeft := by
    simp only [gateManager_tracks, hds, List.mem_cons, List.not_mem_nil, or_false, forall_eq_or_imp, forall_eq]
    exact ⟨⟨fun _ => rfl, fun _ => rfl⟩, fun _ => rfl, fun _ => rfl⟩
  have k4 : ∀ o ∈ gateManager.getAllTracks, ∀ d ∈ ds, label (TrackOps.uuid o) ≠ label (TrackOps.uuid d) →
      1000 ≤ poseGap (world (label (TrackOps.uuid o))) (world (label (TrackOps.uuid d))) := by
    simp only [gateManager_tracks, hds, List.mem_cons, List.not_mem_nil, or_false, forall_eq_or_imp, forall_eq]
    refine ⟨⟨fun _ => hfar _ _, fun h => absurd rfl h⟩, fun h => absurd rfl h, fun _ => ?_⟩
    refine (hfar ⟨[1]⟩ ⟨[1]⟩).trans (le_of_eq ?_)
    rw [gap_eq, poseDistance_comm, ← gap_eq]
    rfl
  have ht : List.Forall₂ (fun o o' => predict2 o 10 (unscentedTransform chol 1 2 1)
      (unscentedTransform chol 1 2 1) = .ok o') gateManager.getAllTracks gateManager.getAllTracks := by
    rw [gateManager_tracks]
    exact .cons (hp _ _) (.cons (hp _ _) .nil)
  have hd : List.Forall₂ (fun o o' => predict2 o 10 (unscentedTransform chol 1 2 1)
      (unscentedTransform chol 1 2 1) = .ok o') ds ds := .cons (hp _ _) (.cons (hp _ _) .nil)
  have hone : ∀ o, ∃ x, Only gateManager.getAllTracks label o x := by
    intro o
    by_cases h1 : o = 1
    · subst h1
      refine ⟨some (.inl (gateTrack 0 ⟨[1]⟩)), fun x => ?_⟩
      rw [gateManager_tracks]
      constructor
      · rintro ⟨hx, hl⟩
        rcases List.mem_cons.1 hx with rfl | hx
        · rfl
        · rw [List.mem_singleton.1 hx] at hl
          exact absurd hl (by show ¬ 2 = 1; decide)
      · rintro rfl
        exact ⟨List.mem_cons_self, rfl⟩
    by_cases h2 : o = 2
    · subst h2
      refine ⟨some (.inl (gateTrack 1000 ⟨[1, 1]⟩)), fun x => ?_⟩
      rw [gateManager_tracks]
      constructor
      · rintro ⟨hx, hl⟩
        rcases List.mem_cons.1 hx with rfl | hx
        · exact absurd hl (by show ¬ 1 = 2; decide)
        · exact List.mem_singleton.1 hx
      · rintro rfl
        exact ⟨List.mem_cons_of_mem _ List.mem_cons_self, rfl⟩
    · refine ⟨none, fun x hx => ?_⟩
      rw [gateManager_tracks] at hx
      rcases List.mem_cons.1 hx with rfl | hx
      · exact fun h => h1 h.symm
      · rw [List.mem_singleton.1 hx]
        exact fun h => h2 h.symm
  have hci : ∀ x u y v, (ciVisitor (.inl (gateTrack x u)) (.inl (gateTrack y v))).IsOk := by
    intro x u y v
    simp only [ciVisitor, fusePair_posDef (gateTrack x u) (gateTrack y v) (hP x u) (hP y v)]
    trivial
  have hs10 : √(((1 : ℝ) / 10) ^ 2) = 1 / 10 := Real.sqrt_sq (by norm_num)
  have ksure : ∀ t ∈ gateManager.getAllTracks, SureWithin ((1 / 10) ^ 2) ((1 / 10) ^ 2) t := by
    simp only [gateManager_tracks, List.mem_cons, List.not_mem_nil, or_false, forall_eq_or_imp, forall_eq]
    exact ⟨sureTrack_sure 0 (by norm_num) ⟨[1]⟩, sureTrack_sure 1000 (by norm_num) ⟨[1, 1]⟩⟩
  have hD : ds.map (fun x => label (TrackOps.uuid x)) = [2, 1] := rfl
  obtain ⟨m', a, h, -⟩ := C134_period hchol (u := 1 / 2) (rd := fun x => rd (x.getD 0)) (gate := gateAtHundred)
    (g := 100) zero_le_one zero_le_one (by norm_num) gateManager_reachable (by simp) ht hd k1 ksure k2 k3 k4 (by norm_num)
    (by norm_num) (fun x hx => .inl (hrd x hx)) (fun _ => rfl) (by norm_num) (by rw [hs10]; norm_num)
    (by rw [hs10]; norm_num) hone (by rw [hD]; decide)
    (.inl ⟨_, mt₁, _, md₁, _, mt₂, _, md₂, rfl, rfl, by show 2 ≠ 1; decide⟩)
    (by rw [gateManager_tracks]; simp [hds]) hs (by
      simp only [gateManager_tracks, hds, List.mem_cons, List.not_mem_nil, or_false, forall_eq_or_imp, forall_eq]
      exact ⟨⟨fun _ => hci _ _ _ _, fun _ => hci _ _ _ _⟩, fun _ => hci _ _ _ _, fun _ => hci _ _ _ _⟩)
  exact ⟨fun x => rd (x.getD 0), m', a, h⟩

end Mot.Props
