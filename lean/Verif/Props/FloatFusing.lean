import Verif.Proofs.FloatFusing
import Verif.Props.FloatPredict
import Verif.Props.FloatMahalanobis
/-!
# Fusing as it is computed: special values (C98)
-/

namespace Mot.Props

open Mot Spec Matrix

variable {m : Libm}

/-! ### Results are `float`s -/

theorem fused_isFloat {n : ℕ} {E : EigenF} {m₁ m₂ x : Fin n → FP} {A₁ A₂ C : Matrix (Fin n) (Fin n) FP}
    {w : FP} (h : IsIntersectionF E m₁ A₁ m₂ A₂ w x C) (i : Fin n) (q : ℚ) (hq : x i = .fin q) :
    IsFloat q := by
  obtain ⟨-, s₁, s₂, -, -, h3⟩ := h
  refine SumsTo.isFloat (h3 i) (fun a ha r hr => ?_) q hq
  obtain ⟨j, rfl⟩ := List.mem_ofFn.1 ha
  exact mul_isFloat hr

/-- C98: the states hold `double`s, but every number of a fused state is a `float`. -/
theorem C98_float_ctrv {E : EigenF} {t d f : DynObj (CtrvStateF m) (Matrix (Fin 5) (Fin 5) FP)}
    (h : IsFusedF E t d f) :
    ∀ c ∈ [f.state.x, f.state.y, f.state.v, f.state.yawRate], ∀ q, c = .fin q → IsFloat q := by
  obtain ⟨x, C, hx, rfl⟩ := h
  intro f hf q hq
  have key : ∀ j, (x j).conv binary64 = .fin q → IsFloat q := fun j hj =>
    (conv64_isFloat (fun q => fused_isFloat hx j q) hj).2
  simp only [List.mem_cons, List.not_mem_nil, or_false] at hf
  rcases hf with rfl | rfl | rfl | rfl
  · exact key 0 hq
  · exact key 1 hq
  · exact key 2 hq
  · exact key 4 hq

/-- C98: likewise for the CTRA model. -/
theorem C98_float_ctra {E : EigenF} {t d f : DynObj (CtraStateF m) (Matrix (Fin 6) (Fin 6) FP)}
    (h : IsFusedF E t d f) :
    ∀ c ∈ [f.state.x, f.state.y, f.state.v, f.state.yawRate, f.state.a], ∀ q, c = .fin q →
      IsFloat q := by
  obtain ⟨x, C, hx, rfl⟩ := h
  intro f hf q hq
  have key : ∀ j, (x j).conv binary64 = .fin q → IsFloat q := fun j hj =>
    (conv64_isFloat (fun q => fused_isFloat hx j q) hj).2
  simp only [List.mem_cons, List.not_mem_nil, or_false] at hf
  rcases hf with rfl | rfl | rfl | rfl | rfl
  · exact key 0 hq
  · exact key 1 hq
  · exact key 2 hq
  · exact key 4 hq
  · exact key 5 hq

/-- C98: a fused coordinate of at least 4194304 m is a multiple of half a metre, whatever the
covariances. -/
theorem C98_grid_ctrv {E : EigenF} {t d f : DynObj (CtrvStateF m) (Matrix (Fin 5) (Fin 5) FP)}
    (h : IsFusedF E t d f) :
    ∀ c ∈ [f.state.x, f.state.y], ∀ q, c = .fin q → 4194304 ≤ |q| → ∃ j : ℤ, q = j / 2 := by
  intro c hc q hq hb
  obtain ⟨j, hj⟩ := isFloat_grid (k := 22) (C98_float_ctrv h c
    (by simp only [List.mem_cons, List.not_mem_nil, or_false] at hc ⊢; tauto) q hq)
    (le_trans (by norm_num) hb)
  exact ⟨j, by rw [hj]; norm_num [zpow_neg]; ring⟩

/-- C98: likewise for the CTRA model. -/
theorem C98_grid_ctra {E : EigenF} {t d f : DynObj (CtraStateF m) (Matrix (Fin 6) (Fin 6) FP)}
    (h : IsFusedF E t d f) :
    ∀ c ∈ [f.state.x, f.state.y], ∀ q, c = .fin q → 4194304 ≤ |q| → ∃ j : ℤ, q = j / 2 := by
  intro c hc q hq hb
  obtain ⟨j, hj⟩ := isFloat_grid (k := 22) (C98_float_ctra h c
    (by simp only [List.mem_cons, List.not_mem_nil, or_false] at hc ⊢; tauto) q hq)
    (le_trans (by norm_num) hb)
  exact ⟨j, by rw [hj]; norm_num [zpow_neg]; ring⟩

/-- C98: fusing replaces state, covariance and time; identity and class are the track's. -/
theorem C98_frame {S : Type} {n : ℕ} [MotionModelF S n] {E : EigenF}
    {t d f : DynObj S (Matrix (Fin n) (Fin n) FP)} (h : IsFusedF E t d f) :
    f.timestamp = d.timestamp ∧ f.uuid = t.uuid ∧ f.semanticClass = t.semanticClass := by
  obtain ⟨x, C, -, rfl⟩ := h
  exact ⟨rfl, rfl, rfl⟩

/-! ### Infinities and NaN spread -/

/-- C98: one number that is infinite or NaN, in the track's or the detection's state, in one of the
two inverse covariances, or as weight, and no number of the fused state is finite. -/
theorem C98_nonfinite_ctrv {E : EigenF} {t d f : DynObj (CtrvStateF m) (Matrix (Fin 5) (Fin 5) FP)}
    (h : IsFusedF E t d f)
    (hn : (∃ o ∈ [t, d], ∃ c ∈ [o.state.x, o.state.y, o.state.v, m.getAngle o.state.yaw,
        o.state.yawRate], ∀ q, c ≠ .fin q) ∨
      (∃ o ∈ [t, d], ∃ i j, ∀ q, E.inv o.covariance i j ≠ .fin q) ∨
      ∀ q, generateWeightF E (E.inv t.covariance) (E.inv d.covariance) ≠ .fin q) :
    ∀ c ∈ [f.state.x, f.state.y, f.state.v, f.state.yawRate], ∀ q, c ≠ .fin q := by
  obtain ⟨x, C, hx, rfl⟩ := h
  have hv : ∀ s : CtrvStateF m, (∃ c ∈ [s.x, s.y, s.v, m.getAngle s.yaw, s.yawRate], ∀ q, c ≠ .fin q) →
      ∃ i, (MotionModelF.toVec s i).NotFin := by
    rintro s ⟨c, hc, hq⟩
    simp only [List.mem_cons, List.not_mem_nil, or_false] at hc
    rcases hc with rfl | rfl | rfl | rfl | rfl
    · exact ⟨0, conv_notFin hq⟩
    · exact ⟨1, conv_notFin hq⟩
    · exact ⟨2, conv_notFin hq⟩
    · exact ⟨3, conv_notFin hq⟩
    · exact ⟨4, conv_notFin hq⟩
  have key : ∀ i, (x i).NotFin := hx.notFin (by
    rcases hn with ⟨o, ho, hn⟩ | ⟨o, ho, hn⟩ | hn
    · simp only [List.mem_cons, List.not_mem_nil, or_false] at ho
      rcases ho with rfl | rfl
      · exact .inr (.inl (hv _ hn))
      · exact .inr (.inr (.inl (hv _ hn)))
    · simp only [List.mem_cons, List.not_mem_nil, or_false] at ho
      rcases ho with rfl | rfl
      · exact .inr (.inr (.inr (.inl hn)))
      · exact .inr (.inr (.inr (.inr hn)))
    · exact .inl hn)
  intro c hc
  simp only [List.mem_cons, List.not_mem_nil, or_false] at hc
  rcases hc with rfl | rfl | rfl | rfl
  · exact conv_notFin (key 0)
  · exact conv_notFin (key 1)
  · exact conv_notFin (key 2)
  · exact conv_notFin (key 4)

/-- C98: likewise for the CTRA model. -/
theorem C98_nonfinite_ctra {E : EigenF} {t d f : DynObj (CtraStateF m) (Matrix (Fin 6) (Fin 6) FP)}
    (h : IsFusedF E t d f)
    (hn : (∃ o ∈ [t, d], ∃ c ∈ [o.state.x, o.state.y, o.state.v, m.getAngle o.state.yaw,
        o.state.yawRate, o.state.a], ∀ q, c ≠ .fin q) ∨
      (∃ o ∈ [t, d], ∃ i j, ∀ q, E.inv o.covariance i j ≠ .fin q) ∨
      ∀ q, generateWeightF E (E.inv t.covariance) (E.inv d.covariance) ≠ .fin q) :
    ∀ c ∈ [f.state.x, f.state.y, f.state.v, f.state.yawRate, f.state.a], ∀ q, c ≠ .fin q := by
  obtain ⟨x, C, hx, rfl⟩ := h
  have hv : ∀ s : CtraStateF m,
      (∃ c ∈ [s.x, s.y, s.v, m.getAngle s.yaw, s.yawRate, s.a], ∀ q, c ≠ .fin q) →
      ∃ i, (MotionModelF.toVec s i).NotFin := by
    rintro s ⟨c, hc, hq⟩
    simp only [List.mem_cons, List.not_mem_nil, or_false] at hc
    rcases hc with rfl | rfl | rfl | rfl | rfl | rfl
    · exact ⟨0, conv_notFin hq⟩
    · exact ⟨1, conv_notFin hq⟩
    · exact ⟨2, conv_notFin hq⟩
    · exact ⟨3, conv_notFin hq⟩
    · exact ⟨4, conv_notFin hq⟩
    · exact ⟨5, conv_notFin hq⟩
  have key : ∀ i, (x i).NotFin := hx.notFin (by
    rcases hn with ⟨o, ho, hn⟩ | ⟨o, ho, hn⟩ | hn
    · simp only [List.mem_cons, List.not_mem_nil, or_false] at ho
      rcases ho with rfl | rfl
      · exact .inr (.inl (hv _ hn))
      · exact .inr (.inr (.inl (hv _ hn)))
    · simp only [List.mem_cons, List.not_mem_nil, or_false] at ho
      rcases ho with rfl | rfl
      · exact .inr (.inr (.inr (.inl hn)))
      · exact .inr (.inr (.inr (.inr hn)))
    · exact .inl hn)
  intro c hc
  simp only [List.mem_cons, List.not_mem_nil, or_false] at hc
  rcases hc with rfl | rfl | rfl | rfl | rfl
  · exact conv_notFin (key 0)
  · exact conv_notFin (key 1)
  · exact conv_notFin (key 2)
  · exact conv_notFin (key 4)
  · exact conv_notFin (key 5)

/-! ### Determinants overflow and underflow -/

section
variable {n : ℕ} {E : EigenF}

/-- reciprocals of a diagonal -/
theorem inv_diag_range (hE : E.Diagonal) {v : Fin n → ℚ} {lo hi : ℕ} (hlo : lo ≤ 126) (hhi : hi ≤ 126)
    (hv : ∀ i, 1 / 2 ^ lo ≤ v i) (hv' : ∀ i, v i ≤ 2 ^ hi) :
    ∃ a : Fin n → ℚ, E.inv (diagonalF fun i => .fin (v i)) = diagonalF (fun i => .fin (a i)) ∧
      ∀ i, 0 < a i ∧ a i ≤ 2 ^ lo ∧ ∀ k : ℕ, 2 ^ k * v i ≤ 1 → 2 ^ k ≤ a i := by
  have vp : ∀ i, 0 < v i := fun i => lt_of_lt_of_le (by positivity) (hv i)
  have r2 : ∀ i, 1 / v i ≤ 2 ^ lo := fun i => by
    have := one_div_le_one_div_of_le (by positivity) (hv i)
    rwa [one_div_one_div] at this
  have r0 : ∀ i, 0 ≤ 1 / v i := fun i => (one_div_pos.2 (vp i)).le
  have hd : ∀ i, FP.div binary32 (.fin 1) (.fin (v i)) = .fin (binary32.round (1 / v i)) := fun i =>
    (if_neg (vp i).ne').trans (b32_ofRat (by
      rw [abs_of_nonneg (r0 i)]
      exact (r2 i).trans (pow_le_pow_right₀ (by norm_num) (by omega))))
  refine ⟨fun i => binary32.round (1 / v i), ?_, fun i => ⟨?_, ?_, fun k hk => ?_⟩⟩
  · rw [hE.inv v (fun i => (vp i).ne') fun i => ⟨_, hd i⟩]
    simp only [hd]
  · have := binary32.round_mono (by decide) (by positivity)
      (one_div_le_one_div_of_le (vp i) (hv' i))
    rw [b32_round_pow_neg (by omega)] at this
    exact lt_of_lt_of_le (by positivity) this
  · have := binary32.round_mono (by decide) (r0 i) (r2 i)
    rwa [b32_round_pow] at this
  · have := binary32.round_mono (by decide) (by positivity) ((le_div_iff₀ (vp i)).2 hk)
    rwa [b32_round_pow] at this

/-- sum of diagonal matrices -/
theorem diag_add {a b c : Fin n → FP} (h : ∀ i, FP.add binary32 (a i) (b i) = c i) :
    (fun i j => FP.add binary32 (diagonalF a i j) (diagonalF b i j)) = diagonalF c := by
  funext i j
  unfold diagonalF
  by_cases hij : i = j
  · rw [if_pos hij, if_pos hij, if_pos hij, h]
  · rw [if_neg hij, if_neg hij, if_neg hij, add_zero_zero]

/-- C98: small variances make the weight NaN: the determinant of the sum of the inverse covariances
overflows.  Variances of at most 2⁻ᵏ are enough if (k + 1)·n ≥ 128: for CTRV 2⁻²⁵ (standard
deviations of 0.17 mm), for CTRA 2⁻²¹ (0.69 mm). -/
theorem C98_overflow (hE : E.Diagonal) (hn : 0 < n) {k : ℕ} (hk : 128 ≤ (k + 1) * n)
    {v₁ v₂ : Fin n → ℚ} (h₁ : ∀ i, 1 / 2 ^ 126 ≤ v₁ i) (h₁' : ∀ i, v₁ i ≤ 1 / 2 ^ k)
    (h₂ : ∀ i, 1 / 2 ^ 126 ≤ v₂ i) (h₂' : ∀ i, v₂ i ≤ 1 / 2 ^ k) :
    generateWeightF E (E.inv (diagonalF fun i => .fin (v₁ i)))
      (E.inv (diagonalF fun i => .fin (v₂ i))) = .nan := by
  have one : ∀ {v : ℚ}, v ≤ 1 / 2 ^ k → v ≤ 2 ^ 126 := fun h => h.trans (by
    rw [div_le_iff₀ (by positivity)]
    exact one_le_mul_of_one_le_of_one_le (by norm_num) (one_le_pow₀ (by norm_num)))
  obtain ⟨a, ea, ha⟩ := inv_diag_range hE le_rfl le_rfl h₁ fun i => one (h₁' i)
  obtain ⟨b, eb, hb⟩ := inv_diag_range hE le_rfl le_rfl h₂ fun i => one (h₂' i)
  have big : ∀ {v : ℚ}, v ≤ 1 / 2 ^ k → 2 ^ k * v ≤ 1 := fun h => by
    rw [mul_comm]
    exact (le_div_iff₀ (by positivity)).1 h
  rw [ea, eb]
  refine weight_overflow ?_
  have hadd : ∀ i, FP.add binary32 (.fin (a i)) (.fin (b i)) = .fin (binary32.round (a i + b i)) ∧
      2 ^ (k + 1) ≤ binary32.round (a i + b i) ∧ binary32.round (a i + b i) < 2 ^ 128 := fun i => by
    obtain ⟨a0, a1, a2⟩ := ha i
    obtain ⟨b0, b1, b2⟩ := hb i
    have l1 := a2 k (big (h₁' i))
    have l2 := b2 k (big (h₂' i))
    have hs : 0 ≤ a i + b i := (add_pos a0 b0).le
    have hu : a i + b i ≤ 2 ^ 127 := by
      have : (2 : ℚ) ^ 127 = 2 ^ 126 + 2 ^ 126 := by norm_num
      rw [this]
      exact add_le_add a1 b1
    refine ⟨b32_ofRat (by rw [abs_of_nonneg hs]; exact hu), ?_, ?_⟩
    · have := binary32.round_mono (x := 2 ^ (k + 1)) (by decide) (by positivity)
        (by rw [pow_succ]; linarith : (2 : ℚ) ^ (k + 1) ≤ a i + b i)
      rwa [b32_round_pow] at this
    · have := binary32.round_mono (by decide) hs hu
      rw [b32_round_pow] at this
      exact this.trans_lt (by norm_num)
  rw [diag_add fun i => (hadd i).1]
  obtain ⟨T, hT, hdet⟩ := hE.det n hn
  rw [hdet _ fun i => (lt_of_lt_of_le (by positivity) (hadd i).2.1).ne',
    T.eval_overflow (fun i => (hadd i).2.1) (fun i => (hadd i).2.2) (by
      rw [hT.length_eq, List.length_finRange]; exact hk)]
  exact notFin_inf _

/-- C98: large variances make the weight NaN: all determinants underflow.  Variances of at least
2ᵏ⁺¹ are enough if k·n ≥ 150: for CTRV 2³¹, for CTRA 2²⁶. -/
theorem C98_underflow (hE : E.Diagonal) (hn : 0 < n) {k : ℕ} (hk : 150 ≤ k * n) (hk' : k ≤ 125)
    {v₁ v₂ : Fin n → ℚ} (h₁ : ∀ i, 2 ^ (k + 1) ≤ v₁ i) (h₁' : ∀ i, v₁ i ≤ 2 ^ 126)
    (h₂ : ∀ i, 2 ^ (k + 1) ≤ v₂ i) (h₂' : ∀ i, v₂ i ≤ 2 ^ 126) :
    generateWeightF E (E.inv (diagonalF fun i => .fin (v₁ i)))
      (E.inv (diagonalF fun i => .fin (v₂ i))) = .nan := by
  have recip : ∀ {v : Fin n → ℚ}, (∀ i, 2 ^ (k + 1) ≤ v i) → (∀ i, v i ≤ 2 ^ 126) →
      ∃ a : Fin n → ℚ, E.inv (diagonalF fun i => .fin (v i)) = diagonalF (fun i => .fin (a i)) ∧
        ∀ i, 1 / 2 ^ 126 ≤ a i ∧ a i ≤ 1 / 2 ^ (k + 1) := by
    intro v hv hv'
    have p0 : (0 : ℚ) < 2 ^ (k + 1) := by positivity
    have vp : ∀ i, 0 < v i := fun i => lt_of_lt_of_le p0 (hv i)
    have r2 : ∀ i, 1 / v i ≤ 1 / 2 ^ (k + 1) := fun i => one_div_le_one_div_of_le p0 (hv i)
    have r0 : ∀ i, 0 ≤ 1 / v i := fun i => (one_div_pos.2 (vp i)).le
    have hle : (1 : ℚ) / 2 ^ (k + 1) ≤ 1 := by
      rw [div_le_one p0]; exact one_le_pow₀ (by norm_num)
    have hd : ∀ i, FP.div binary32 (.fin 1) (.fin (v i)) = .fin (binary32.round (1 / v i)) := fun i =>
      (if_neg (vp i).ne').trans (b32_ofRat (by
        rw [abs_of_nonneg (r0 i)]
        exact ((r2 i).trans hle).trans (by norm_num)))
    refine ⟨fun i => binary32.round (1 / v i), ?_, fun i => ⟨?_, ?_⟩⟩
    · rw [hE.inv v (fun i => (vp i).ne') fun i => ⟨_, hd i⟩]
      simp only [hd]
    · have := binary32.round_mono (by decide) (by positivity)
        (one_div_le_one_div_of_le (vp i) (hv' i))
      rwa [b32_round_pow_neg (by omega)] at this
    · have := binary32.round_mono (by decide) (r0 i) (r2 i)
      rwa [b32_round_pow_neg (by omega)] at this
  obtain ⟨a, ea, ha⟩ := recip h₁ h₁'
  obtain ⟨b, eb, hb⟩ := recip h₂ h₂'
  rw [ea, eb]
  have half : (1 : ℚ) / 2 ^ (k + 1) + 1 / 2 ^ (k + 1) = 1 / 2 ^ k := by
    rw [pow_succ]
    field_simp
    norm_num
  have hle : (1 : ℚ) / 2 ^ (k + 1) ≤ 1 / 2 ^ k := by
    rw [← half]
    exact le_add_of_nonneg_left (by positivity)
  have hone : (1 : ℚ) / 2 ^ k ≤ 1 := by
    rw [div_le_one (by positivity)]; exact one_le_pow₀ (by norm_num)
  obtain ⟨T, hT, hdet⟩ := hE.det n hn
  have hlen : T.leaves.length = n := by rw [hT.length_eq, List.length_finRange]
  have zero : ∀ {c : Fin n → ℚ}, (∀ i, 0 < c i ∧ c i ≤ 1 / 2 ^ k) →
      E.det (diagonalF fun i => .fin (c i)) = .fin 0 := fun {c} hc => by
    rw [hdet c fun i => (hc i).1.ne']
    obtain ⟨q, hq, -, -, h0⟩ := T.eval_small (k := k) (by omega) (fun i => (hc i).1.le) fun i => (hc i).2
    rw [hq, h0 (by rw [hlen]; exact hk)]
  have hadd : ∀ i, FP.add binary32 (.fin (a i)) (.fin (b i)) = .fin (binary32.round (a i + b i)) ∧
      0 < binary32.round (a i + b i) ∧ binary32.round (a i + b i) ≤ 1 / 2 ^ k := fun i => by
    obtain ⟨a0, a1⟩ := ha i
    obtain ⟨b0, b1⟩ := hb i
    have t0 : (0 : ℚ) < 1 / 2 ^ 126 := by positivity
    have hs : 0 ≤ a i + b i := by linarith
    have hu : a i + b i ≤ 1 / 2 ^ k := half ▸ add_le_add a1 b1
    have hr := binary32.round_mono (by decide) hs hu
    rw [b32_round_pow_neg (by omega)] at hr
    refine ⟨b32_ofRat (by rw [abs_of_nonneg hs]; exact (hu.trans hone).trans (by norm_num)), ?_, hr⟩
    have := binary32.round_mono (x := 1 / 2 ^ 126) (by decide) t0.le
      (by linarith : 1 / 2 ^ 126 ≤ a i + b i)
    rw [b32_round_pow_neg (by omega)] at this
    exact lt_of_lt_of_le t0 this
  refine weight_underflow (zero fun i => ⟨lt_of_lt_of_le (by positivity) (ha i).1, (ha i).2.trans hle⟩)
    (zero fun i => ⟨lt_of_lt_of_le (by positivity) (hb i).1, (hb i).2.trans hle⟩) ?_
  rw [diag_add fun i => (hadd i).1]
  exact zero fun i => ⟨(hadd i).2.1, (hadd i).2.2⟩

end

/-! ### A lost track stays lost -/

/-- the first row of the sigma points is the predicted state -/
theorem mean_notFin {S : Type} {n : ℕ} [MotionModelF S n] {α β κ : FP} {lam dt : FP} {s : S}
    {L : Matrix (Fin n) (Fin n) FP} {j : Fin n} {x : FP}
    (hj : (MotionModelF.toVec (MotionModelF.next s dt) j).NotFin)
    (h : IsMeanF (weightsF n α β lam).1 ((predictedRowsF s L dt κ).map (· j)) x) : x.NotFin := by
  unfold predictedRowsF at h
  simp only [List.map_cons] at h
  exact SumsTo.notFin h ⟨_, List.mem_cons_self, notFin_mul (.inr (rotateYawF_notFin hj))⟩

/-- C98: prediction does not bring back a coordinate that is infinite or NaN. -/
theorem C98_stays_lost_ctrv {α β κ dt : FP} {s s' : CtrvStateF m} {L P' : Matrix (Fin 5) (Fin 5) FP}
    (h : IsTransformF α β κ s L dt s' P') :
    ((∀ q, s.x ≠ .fin q) → ∀ q, s'.x ≠ .fin q) ∧ ((∀ q, s.y ≠ .fin q) → ∀ q, s'.y ≠ .fin q) := by
  obtain ⟨x, hx, -, rfl⟩ := h
  constructor
  · intro hs
    refine conv_notFin (mean_notFin ?_ (hx 0))
    refine conv_notFin ?_
    show (CtrvStateF.next s dt).x.NotFin
    unfold CtrvStateF.next
    simp only
    split
    · exact notFin_add (.inl hs)
    · exact notFin_add (.inl hs)
  · intro hs
    refine conv_notFin (mean_notFin ?_ (hx 1))
    refine conv_notFin ?_
    show (CtrvStateF.next s dt).y.NotFin
    unfold CtrvStateF.next
    simp only
    split
    · exact notFin_add (.inl hs)
    · exact notFin_sub_left hs

/-- C98: likewise for the CTRA model. -/
theorem C98_stays_lost_ctra {α β κ dt : FP} {s s' : CtraStateF m} {L P' : Matrix (Fin 6) (Fin 6) FP}
    (h : IsTransformF α β κ s L dt s' P') :
    ((∀ q, s.x ≠ .fin q) → ∀ q, s'.x ≠ .fin q) ∧ ((∀ q, s.y ≠ .fin q) → ∀ q, s'.y ≠ .fin q) := by
  obtain ⟨x, hx, -, rfl⟩ := h
  constructor
  · intro hs
    refine conv_notFin (mean_notFin ?_ (hx 0))
    exact conv_notFin (notFin_add (.inl hs))
  · intro hs
    refine conv_notFin (mean_notFin ?_ (hx 1))
    exact conv_notFin (notFin_add (.inl hs))

/-- C98: from fusing to undefined behaviour.  Fused with a weight that is not finite (see
`C98_overflow` and `C98_underflow`), predicted with any parameters over any duration, and then
associated with a detection of the same kind using the Euclidean score, a track makes the associator
undefined. -/
theorem C98_association_ub {solve : Solver} (hs : IsPermSolver solve) {E : EigenF}
    (tracks detections : List (Obj2 (CtrvStateF m) (Matrix (Fin 5) (Fin 5) FP)
      (CtraStateF m) (Matrix (Fin 6) (Fin 6) FP)))
    (hbig : (scoreTracksAndDetections tracks detections
      (euclidMetric CtrvStateF.pose CtraStateF.pose)).entries.length < 2 ^ 64)
    (hT : (tracks.map TrackOps.uuid).Nodup) (hD : (detections.map TrackOps.uuid).Nodup)
    {t d : Obj2 (CtrvStateF m) (Matrix (Fin 5) (Fin 5) FP) (CtraStateF m) (Matrix (Fin 6) (Fin 6) FP)}
    (ht : t ∈ tracks) (hd : d ∈ detections) (htd : t.isLeft = d.isLeft)
    (hp : match t with
      | .inl o => ∃ t₀ d₀ f, IsFusedF E t₀ d₀ f ∧
          (∀ q, generateWeightF E (E.inv t₀.covariance) (E.inv d₀.covariance) ≠ .fin q) ∧
          ∃ α β κ L dt P', IsTransformF α β κ f.state L dt o.state P'
      | .inr o => ∃ t₀ d₀ f, IsFusedF E t₀ d₀ f ∧
          (∀ q, generateWeightF E (E.inv t₀.covariance) (E.inv d₀.covariance) ≠ .fin q) ∧
          ∃ α β κ L dt P', IsTransformF α β κ f.state L dt o.state P') :
    (gnnAssociator solve (scoreTracksAndDetections tracks detections
      (euclidMetric CtrvStateF.pose CtraStateF.pose))).IsUb := by
  refine C86_nonfinite_pose hs _ _ tracks detections hbig hT hD ht hd htd
    ⟨t, by simp, _, List.mem_cons_self, ?_⟩
  cases t with
  | inl o =>
    obtain ⟨t₀, d₀, f, hf, hw, α, β, κ, L, dt, P', h⟩ := hp
    exact (C98_stays_lost_ctrv h).1 (C98_nonfinite_ctrv hf (.inr (.inr hw)) _ List.mem_cons_self)
  | inr o =>
    obtain ⟨t₀, d₀, f, hf, hw, α, β, κ, L, dt, P', h⟩ := hp
    exact (C98_stays_lost_ctra h).1 (C98_nonfinite_ctra hf (.inr (.inr hw)) _ List.mem_cons_self)

/-! ### Examples -/

/-- products from left to right -/
def leftProduct {n : ℕ} (i : Fin n) : List (Fin n) → ProdTree n
  | [] => .leaf i
  | j :: l => .node (leftProduct j l) (.leaf i)

theorem leaves_leftProduct {n : ℕ} (i : Fin n) (l : List (Fin n)) :
    (leftProduct i l).leaves.Perm (i :: l) := by
  induction l generalizing i with
  | nil => exact List.Perm.refl _
  | cons j l ih =>
    show ((leftProduct j l).leaves ++ [i]).Perm _
    exact List.perm_append_comm.trans ((ih j).cons i)

/-- the tree of a product of `n` factors -/
def product (n : ℕ) (hn : 0 < n) : ProdTree n :=
  leftProduct ⟨0, hn⟩ ((List.finRange n).tail)

theorem leaves_product (n : ℕ) (hn : 0 < n) : (product n hn).leaves.Perm (List.finRange n) := by
  refine (leaves_leftProduct _ _).trans ?_
  obtain ⟨k, rfl⟩ : ∃ k, n = k + 1 := ⟨n - 1, by omega⟩
  rw [List.finRange_succ]
  exact List.Perm.refl _

/-- an inverse and a determinant that read the diagonal only -/
def diagonalEigen : EigenF where
  inv A := diagonalF fun i => FP.div binary32 (.fin 1) (A i i)
  invX A := diagonalF fun i => FP.div binary32 (.fin 1) (A i i)
  det {n} A := if hn : 0 < n then (product n hn).eval fun i => A i i else .fin 1

/-- C98: the assumption on diagonal matrices can be met. -/
theorem C98_eigen : diagonalEigen.Diagonal where
  inv v _ _ := by
    unfold diagonalEigen diagonalF
    funext i j
    simp
  invX v _ _ := by
    unfold diagonalEigen diagonalF
    funext i j
    simp
  det n hn := ⟨product n hn, leaves_product n hn, fun v _ => by
    simp only [diagonalEigen, dif_pos hn, diagonalF, if_true]⟩

/-- C98: standard deviations of 0.1 mm in all five coordinates are too small, 10⁵ are too large. -/
example : generateWeightF diagonalEigen
      (diagonalEigen.inv (diagonalF fun _ : Fin 5 => .fin (1 / 10 ^ 8)))
      (diagonalEigen.inv (diagonalF fun _ : Fin 5 => .fin (1 / 10 ^ 8))) = .nan ∧
    generateWeightF diagonalEigen
      (diagonalEigen.inv (diagonalF fun _ : Fin 5 => .fin (10 ^ 10)))
      (diagonalEigen.inv (diagonalF fun _ : Fin 5 => .fin (10 ^ 10))) = .nan :=
  ⟨C98_overflow C98_eigen (k := 25) (by norm_num) (by norm_num) (fun _ => by norm_num)
    (fun _ => by norm_num) (fun _ => by norm_num) (fun _ => by norm_num),
  C98_underflow C98_eigen (k := 30) (by norm_num) (by norm_num) (by norm_num) (fun _ => by norm_num)
    (fun _ => by norm_num) (fun _ => by norm_num) (fun _ => by norm_num)⟩

end Mot.Props
