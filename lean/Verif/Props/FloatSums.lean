import Verif.Proofs.FloatSums
import Verif.Props.FloatUt
import Verif.Props.FloatPose
/-!
# Weighted mean and covariance as they are computed (C92)
-/

namespace Mot.Props

open Mot Spec

/-- `x` is a finite `float` within `e` of `y` -/
def Within (x : FP) (y e : ℚ) : Prop := ∃ q, x = .fin q ∧ |q - y| ≤ e

theorem forall₂_zipWith {α β γ δ : Type*} {R : γ → δ → Prop} {f : α → β → γ} {g : α → β → δ} :
    ∀ {l : List α} {r : List β}, (∀ p ∈ l.zip r, R (f p.1 p.2) (g p.1 p.2)) →
      List.Forall₂ R (List.zipWith f l r) (List.zipWith g l r)
  | [], _, _ => by simp
  | _ :: _, [], _ => by simp
  | a :: l, b :: r, h => by
    rw [List.zipWith_cons_cons, List.zipWith_cons_cons]
    exact .cons (h (a, b) (by simp)) (forall₂_zipWith fun p hp => h p (by
      rw [List.zip_cons_cons]
      exact List.mem_cons_of_mem _ hp))

theorem mem_zipWith {α β γ : Type*} {f : α → β → γ} {l : List α} {r : List β} {t : γ}
    (h : t ∈ List.zipWith f l r) : ∃ a ∈ l, ∃ b ∈ r, t = f a b := by
  rw [← List.map_uncurry_zip_eq_zipWith] at h
  obtain ⟨⟨a, b⟩, hp, rfl⟩ := List.mem_map.1 h
  exact ⟨a, (List.of_mem_zip hp).1, b, (List.of_mem_zip hp).2, rfl⟩

theorem zipWith_replicate {α β γ : Type*} (f : α → β → γ) (a : α) (l : List β) :
    List.zipWith f (List.replicate l.length a) l = l.map (f a) := by
  induction l with
  | nil => rfl
  | cons b l ih => rw [List.length_cons, List.replicate_succ, List.zipWith_cons_cons, ih, List.map_cons]

/-- C92: an entry of the weighted mean, whatever the order of summation, is off by about one unit
roundoff per point and of the sum of the magnitudes. -/
theorem C92_mean {ws cs : List ℚ} (hl : ws.length = cs.length) (hN : ws.length ≤ 2 ^ 14)
    (hS : ((List.zipWith (· * ·) ws cs).map (|·|)).sum ≤ 2 ^ 110) {x : FP}
    (h : IsMeanF (ws.map .fin) (cs.map .fin) x) :
    Within x (List.zipWith (· * ·) ws cs).sum
      (1001 / 1000 * (ws.length / 2 ^ 24) * ((List.zipWith (· * ·) ws cs).map (|·|)).sum +
        ws.length / 2 ^ 148) := by
  unfold IsMeanF at h
  rw [List.zipWith_map] at h
  have ht : List.Forall₂ (Term u24 (1 / 2 ^ 150))
      (List.zipWith (fun w c => FP.mul binary32 (.fin w) (.fin c)) ws cs)
      (List.zipWith (· * ·) ws cs) := by
    apply forall₂_zipWith
    intro p hp
    refine mean_term (le_trans ?_ hS)
    refine List.single_le_sum (l := (List.zipWith (· * ·) ws cs).map (|·|)) ?_ _ ?_
    · intro y hy
      obtain ⟨z, -, rfl⟩ := List.mem_map.1 hy
      exact abs_nonneg z
    · refine List.mem_map.2 ⟨p.1 * p.2, ?_, rfl⟩
      rw [← List.map_uncurry_zip_eq_zipWith]
      exact List.mem_map.2 ⟨p, hp, rfl⟩
  have hlen : (List.zipWith (fun w c => FP.mul binary32 (.fin w) (.fin c)) ws cs).length = ws.length := by
    rw [List.length_zipWith, hl, min_self]
  obtain ⟨q, hq, e⟩ := h.terms ht (k := 0) (by norm_num) (by norm_num) (by norm_num)
    (by rw [hlen]; omega) hS
  refine ⟨q, hq, e.trans (le_of_eq ?_)⟩
  rw [hlen]
  push_cast
  ring

/-- C92: an entry of the covariance for given means. -/
theorem C92_covariance {ws cj ck : List ℚ} {xj xk : ℚ} (hj : ws.length = cj.length)
    (hk : ws.length = ck.length) (hN : ws.length ≤ 2 ^ 13) (hw : ∀ w ∈ ws, |w| ≤ 2 ^ 30)
    (hcj : ∀ c ∈ cj, |c| ≤ 2 ^ 30) (hck : ∀ c ∈ ck, |c| ≤ 2 ^ 30) (hxj : |xj| ≤ 2 ^ 30)
    (hxk : |xk| ≤ 2 ^ 30) {p : FP}
    (h : IsCovF (ws.map .fin) (cj.map .fin) (ck.map .fin) (.fin xj) (.fin xk) p) :
    let terms := List.zipWith (fun c d => (c - xj) * d) cj (List.zipWith (fun w c => w * (c - xk)) ws ck)
    Within p terms.sum
      (1001 / 1000 * ((ws.length + 3) / 2 ^ 24) * (terms.map (|·|)).sum + ws.length / 2 ^ 78) := by
  intro terms
  unfold IsCovF at h
  rw [List.map_map, List.map_map, List.zipWith_map_left, List.zipWith_map_left] at h
  rw [show List.zipWith (fun a b => FP.mul binary32 (.fin a) b) ws
    (List.map ((fun a => FP.sub binary32 a (.fin xk)) ∘ FP.fin) ck) =
    List.zipWith (fun w c => FP.mul binary32 (.fin w) (FP.sub binary32 (.fin c) (.fin xk))) ws ck by
      rw [List.zipWith_map_right]; rfl] at h
  change SumsTo binary32 (List.zipWith (fun c d => FP.mul binary32 (FP.sub binary32 (.fin c) (.fin xj)) d) cj
    (List.zipWith (fun w c => FP.mul binary32 (.fin w) (FP.sub binary32 (.fin c) (.fin xk))) ws ck)) p at h
  have ht : List.Forall₂ (Term ((1 + u24) ^ 4 - 1) (1 / 2 ^ 80))
      (List.zipWith (fun c d => FP.mul binary32 (FP.sub binary32 (.fin c) (.fin xj)) d) cj
        (List.zipWith (fun w c => FP.mul binary32 (.fin w) (FP.sub binary32 (.fin c) (.fin xk))) ws ck))
      terms := by
    clear h
    show List.Forall₂ _ _ (List.zipWith (fun c d => (c - xj) * d) cj
      (List.zipWith (fun w c => w * (c - xk)) ws ck))
    clear terms hN
    induction cj generalizing ws ck with
    | nil => simp
    | cons c cj ih =>
      obtain _ | ⟨w, ws⟩ := ws
      · simp
      obtain _ | ⟨c', ck⟩ := ck
      · simp
      simp only [List.zipWith_cons_cons]
      refine .cons (cov_term (hw w (by simp)) (hcj c (by simp)) hxj (hck c' (by simp)) hxk) ?_
      exact ih (by simpa using hj) (by simpa using hk) (fun w h => hw w (List.mem_cons_of_mem _ h))
        (fun w h => hcj w (List.mem_cons_of_mem _ h)) (fun w h => hck w (List.mem_cons_of_mem _ h))
  have hlen := ht.length_eq
  have hlt : terms.length = ws.length := by
    show (List.zipWith _ _ _).length = _
    rw [List.length_zipWith, List.length_zipWith, ← hj, ← hk, min_self, min_self]
  have hS : (terms.map (|·|)).sum ≤ 2 ^ 110 := by
    have hb : ∀ t ∈ terms.map (|·|), t ≤ 2 ^ 93 := by
      intro t ht
      obtain ⟨y, hy, rfl⟩ := List.mem_map.1 ht
      obtain ⟨c, hc, d, hd, rfl⟩ := mem_zipWith hy
      obtain ⟨w, hwm, c', hc', rfl⟩ := mem_zipWith hd
      have h1 : |c - xj| ≤ 2 ^ 31 := (abs_sub _ _).trans (by
        have := hcj c hc
        norm_num at *
        linarith)
      have h2 : |c' - xk| ≤ 2 ^ 31 := (abs_sub _ _).trans (by
        have := hck c' hc'
        norm_num at *
        linarith)
      rw [abs_mul, abs_mul]
      exact (mul_le_mul h1 (mul_le_mul (hw w hwm) h2 (abs_nonneg _) (by norm_num)) (by positivity)
        (by norm_num)).trans (by norm_num)
    refine (List.sum_le_card_nsmul _ _ hb).trans ?_
    rw [List.length_map, hlt, nsmul_eq_mul]
    have : (ws.length : ℚ) ≤ 2 ^ 13 := by exact_mod_cast hN
    exact (mul_le_mul_of_nonneg_right this (by norm_num)).trans (by norm_num)
  obtain ⟨q, hq, e⟩ := h.terms ht (k := 3) (by rw [add_sub_cancel]) (by norm_num) (by norm_num)
    (by rw [hlen, hlt]; omega) hS
  refine ⟨q, hq, e.trans ?_⟩
  rw [hlen, hlt]
  push_cast
  have : (0 : ℚ) ≤ ws.length := by positivity
  have e2 : 2 * (ws.length : ℚ) * (1 / 2 ^ 80 + 1 / 2 ^ 150) ≤ ws.length / 2 ^ 78 := by
    rw [div_eq_mul_one_div (ws.length : ℚ), mul_assoc, mul_left_comm]
    exact mul_le_mul_of_nonneg_left (by norm_num) this
  linarith

/-- C92: with weights that are not negative no computed variance is negative, whatever the points,
means and order of summation. -/
theorem C92_variance_nonneg {ws : List ℚ} (hw : ∀ w ∈ ws, 0 ≤ w) {c : List FP} {x p : FP}
    (h : IsCovF (ws.map .fin) c c x x p) : p ≠ .inf true ∧ ∀ q, p = .fin q → 0 ≤ q := by
  unfold IsCovF at h
  refine SumsTo.notNeg h ?_
  clear h
  generalize hy : (c.map fun a => FP.sub binary32 a x) = y
  clear hy
  rw [List.zipWith_map_left]
  induction y generalizing ws with
  | nil => simp
  | cons a y ih =>
    obtain _ | ⟨w, ws⟩ := ws
    · simp
    intro t ht
    simp only [List.zipWith_cons_cons, List.mem_cons] at ht
    rcases ht with rfl | ht
    · exact notNeg_square (hw w (by simp)) a
    · exact ih (fun w h => hw w (List.mem_cons_of_mem _ h)) t ht

/-- C92: this is so if |α| ≤ 1, β ≥ 0 and lambda is not negative. -/
theorem C92_weights_nonneg {n : ℕ} (hn : 1 ≤ n) (hn' : n < 2 ^ 20) {a b L : ℚ} (ha : |a| ≤ 1) (hb : 0 ≤ b)
    (hb' : b ≤ 2 ^ 100) (hL : 0 ≤ L) (hL' : L ≤ 2 ^ 60) :
    ∃ ws : List ℚ, (weightsF n (.fin a) (.fin b) (.fin L)).2 = ws.map .fin ∧ ∀ w ∈ ws, 0 ≤ w := by
  have hn0 : (0 : ℚ) < n := by exact_mod_cast hn
  have hn1 : (1 : ℚ) ≤ n := by exact_mod_cast hn
  obtain ⟨w0, w, e1, e2, r0, -⟩ := weights_fin (L := L) hn' (by rwa [abs_of_nonneg hL])
    (by rw [abs_of_nonneg (by linarith)]; exact le_trans (by norm_num) (hn1.trans (by linarith)))
  obtain ⟨d, hs, hd⟩ := scale_fin (L := L) hn' (by rwa [abs_of_nonneg hL])
    (by rw [abs_of_nonneg (by linarith)]; exact le_trans (by norm_num) (hn1.trans (by linarith)))
  have hd0 : 0 < d := by
    rw [abs_of_nonneg (show 0 ≤ n + L by linarith)] at hd
    have := (abs_le.1 hd).1
    norm_num at this
    linarith
  have p0 : 0 ≤ w0 := by
    refine (?_ : FP.NotNeg (wm0F n (.fin L))).2 w0 e1
    unfold wm0F
    rw [hs]
    show FP.NotNeg (if d = 0 then _ else _)
    rw [if_neg hd0.ne']
    exact notNeg_ofRat (div_nonneg hL hd0.le)
  have p1 : 0 ≤ w := by
    refine (?_ : FP.NotNeg (wiF n (.fin L))).2 w e2
    unfold wiF
    rw [hs]
    have : FP.div binary32 (.fin 1) (.fin d) = FP.ofRat binary32 (1 / d) := if_neg hd0.ne'
    rw [this]
    exact notNeg_conv (notNeg_mul (notNeg_ofRat (one_div_nonneg.2 hd0.le)))
  have b0 : w0 ≤ 2 := by
    rw [abs_of_nonneg hL, abs_of_nonneg (show 0 ≤ n + L by linarith)] at r0
    have h1 : L / (n + L) ≤ 1 := by
      rw [div_le_one (by linarith)]
      linarith
    have h2 := (abs_le.1 r0).2
    norm_num at h2
    linarith
  have haa : a * a ≤ 1 := by
    rw [← abs_mul_abs_self]
    exact mul_le_one₀ ha (abs_nonneg _) ha
  have q1 : FP.mul binary32 (.fin a) (.fin a) = .fin (binary32.round (a * a)) :=
    b32_ofRat (by rw [abs_of_nonneg (mul_self_nonneg a)]; exact haa.trans (by norm_num))
  have t0 := binary32.round_nonneg (mul_self_nonneg a)
  have t1 : binary32.round (a * a) ≤ 1 :=
    binary32.round_le_one (by decide) (by decide) (mul_self_nonneg a) haa
  generalize binary32.round (a * a) = r at *
  have q2 : FP.sub binary32 (.fin 1) (.fin r) = .fin (binary32.round (1 - r)) :=
    b32_ofRat (by rw [abs_of_nonneg (by linarith)]; exact le_trans (by linarith) (show (1 : ℚ) ≤ _ by norm_num))
  have t2 := binary32.round_nonneg (show 0 ≤ 1 - r by linarith)
  have t3 : binary32.round (1 - r) ≤ 1 :=
    binary32.round_le_one (by decide) (by decide) (by linarith) (by linarith)
  generalize binary32.round (1 - r) = g at *
  have q3 : FP.add binary32 (.fin g) (.fin b) = .fin (binary32.round (g + b)) :=
    b32_ofRat (by rw [abs_of_nonneg (by linarith)]; norm_num at hb' ⊢; linarith)
  obtain ⟨t4, t5⟩ := b32_pos (show 0 ≤ g + b by linarith)
  have q4 : FP.add binary32 (.fin w0) (.fin (binary32.round (g + b))) =
      .fin (binary32.round (w0 + binary32.round (g + b))) :=
    b32_ofRat (by
      rw [abs_of_nonneg (by linarith)]
      norm_num at hb' t5 ⊢
      linarith)
  refine ⟨binary32.round (w0 + binary32.round (g + b)) :: List.replicate (2 * n) w, ?_, ?_⟩
  · unfold weightsF wc0F
    rw [e2, q1, q2, q3]
    unfold wm0F at e1
    rw [e1, q4]
    simp
  · intro v hv
    rcases List.mem_cons.1 hv with rfl | hv
    · exact binary32.round_nonneg (by linarith)
    · rw [List.eq_of_mem_replicate hv]
      exact p1

/-- sum of a list from left to right -/
def leftSum : List FP → FP
  | [] => .fin 0
  | a :: l => l.foldl (FP.add binary32) a

theorem leftSum_sums {l : List FP} (h : l ≠ []) : SumsTo binary32 l (leftSum l) := by
  obtain _ | ⟨a, l⟩ := l
  · exact absurd rfl h
  show SumsTo binary32 (a :: l) (l.foldl (FP.add binary32) a)
  have key : ∀ (l p : List FP) (a : FP), SumsTo binary32 p a →
      SumsTo binary32 (p ++ l) (l.foldl (FP.add binary32) a) := by
    intro l
    induction l with
    | nil => intro p a h; simpa using h
    | cons b l ih =>
      intro p a h
      rw [List.foldl_cons, show p ++ b :: l = (p ++ [b]) ++ l by simp]
      exact ih _ _ (.add h (.one b))
  exact key l [a] a (.one a)

/-- C92: the computed covariance need not be symmetric: for the default weights and points that are
small whole numbers, all sums taken from left to right. -/
theorem C92_not_symmetric :
    ∃ cj ck : List FP, ∃ xj xk p q : FP, cj.length = 11 ∧ ck.length = 11 ∧
      let w := weightsF 5 (.fin 1) (.fin 1) (lambdaF 5 (.fin 1) (.fin 2))
      IsMeanF w.1 cj xj ∧ IsMeanF w.1 ck xk ∧ IsCovF w.2 cj ck xj xk p ∧ IsCovF w.2 ck cj xk xj q ∧
      p ≠ q := by
  refine ⟨[.fin 0, .fin 2, .fin 0, .fin 0, .fin 0, .fin 0, .fin 0, .fin 0, .fin 0, .fin 0, .fin 0],
    [.fin 0, .fin 1, .fin 1, .fin 0, .fin 0, .fin 0, .fin 0, .fin 0, .fin 0, .fin 0, .fin 0],
    .fin (9586981 / 67108864), .fin (9586981 / 67108864), .fin (9586979 / 67108864),
    .fin (4793489 / 33554432), rfl, rfl, ?_⟩
  have key : ∀ {l : List FP} {x : FP}, l ≠ [] → leftSum l = x → SumsTo binary32 l x :=
    fun h e => e ▸ leftSum_sums h
  refine ⟨key ?_ ?_, key ?_ ?_, key ?_ ?_, key ?_ ?_, ?_⟩ <;> decide +kernel

/-- C92: the predicted mean against the exact weighted mean, all points of magnitude at most `B`. -/
theorem C92_prediction {n : ℕ} (hn : 1 ≤ n) (hn' : n ≤ 100) {L : ℚ} (hL : |L| ≤ 2 ^ 20)
    (hD : 1 / 2 ^ 40 ≤ |n + L|) {B : ℚ} (hB : B ≤ 2 ^ 40) {c0 : ℚ} {cs : List ℚ} (hcs : cs.length = 2 * n)
    (h0 : |c0| ≤ B) (hc : ∀ c ∈ cs, |c| ≤ B) (α β : FP) {x : FP}
    (h : IsMeanF (weightsF n α β (.fin L)).1 (.fin c0 :: cs.map .fin) x) :
    Within x ((L * c0 + cs.sum / 2) / (n + L))
      ((2 * n + 5) / 2 ^ 24 * ((|L| + n) / |n + L|) * B + 1 / 2 ^ 100) := by
  obtain ⟨w0, w, e1, e2, r0, r1⟩ := weights_fin (n := n) (L := L) (by omega)
    (hL.trans (by norm_num)) (le_trans (by norm_num) hD)
  have hB0 : 0 ≤ B := (abs_nonneg _).trans h0
  have hDp : 0 < |(n : ℚ) + L| := lt_of_lt_of_le (by norm_num) hD
  have hD0 : (n : ℚ) + L ≠ 0 := abs_pos.1 hDp
  have hn1 : (n : ℚ) ≤ 100 := by exact_mod_cast hn'
  have hn0 : (0 : ℚ) ≤ n := by positivity
  have hw : (weightsF n α β (.fin L)).1 = (w0 :: List.replicate (2 * n) w).map .fin := by
    unfold weightsF
    rw [e1, e2]
    simp
  rw [hw, ← List.map_cons] at h
  have hz : List.zipWith (· * ·) (w0 :: List.replicate (2 * n) w) (c0 :: cs) =
      w0 * c0 :: cs.map (w * ·) := by
    rw [List.zipWith_cons_cons, ← hcs, zipWith_replicate]
  have hT : ((List.zipWith (· * ·) (w0 :: List.replicate (2 * n) w) (c0 :: cs)).map (|·|)).sum ≤
      (|w0| + 2 * n * |w|) * B := by
    rw [hz, List.map_cons, List.sum_cons, abs_mul, List.map_map]
    have : (cs.map ((|·|) ∘ (w * ·))).sum ≤ (2 * n : ℕ) • (|w| * B) := by
      rw [← hcs, ← List.length_map (f := (|·|) ∘ (w * ·))]
      refine List.sum_le_card_nsmul _ _ ?_
      intro y hy
      obtain ⟨c, hcm, rfl⟩ := List.mem_map.1 hy
      simp only [Function.comp, abs_mul]
      exact mul_le_mul_of_nonneg_left (hc c hcm) (abs_nonneg w)
    rw [nsmul_eq_mul] at this
    push_cast at this
    have h3 := mul_le_mul_of_nonneg_left h0 (abs_nonneg w0)
    linarith
  have hcsum : |cs.sum| ≤ 2 * n * B := by
    refine (abs_sum_le cs).trans ?_
    have : (cs.map (|·|)).sum ≤ (2 * n : ℕ) • B := by
      rw [← hcs, ← List.length_map (f := (|·|))]
      refine List.sum_le_card_nsmul _ _ ?_
      intro y hy
      obtain ⟨c, hcm, rfl⟩ := List.mem_map.1 hy
      exact hc c hcm
    rw [nsmul_eq_mul] at this
    push_cast at this
    linarith
  generalize hDD : (n : ℚ) + L = D at *
  -- sizes of the weights
  have s0 := abs_sub_abs_le_abs_sub w0 (L / D)
  have s1 := abs_sub_abs_le_abs_sub w (1 / (2 * D))
  rw [abs_div] at s0
  rw [abs_div, abs_one, abs_mul, abs_two] at s1
  have hl0 : 0 ≤ |L| / |D| := by positivity
  have hm0 : 0 ≤ 1 / |D| := by positivity
  have hlB : |L| / |D| ≤ 2 ^ 60 := by
    rw [div_le_iff₀ hDp]
    have := mul_le_mul_of_nonneg_left hD (show (0 : ℚ) ≤ 2 ^ 60 by norm_num)
    norm_num at this hL ⊢
    linarith
  have hmB : 1 / |D| ≤ 2 ^ 40 := by
    rw [div_le_iff₀ hDp]
    have := mul_le_mul_of_nonneg_left hD (show (0 : ℚ) ≤ 2 ^ 40 by norm_num)
    norm_num at this ⊢
    linarith
  have e3 : 1 / (2 * |D|) = 1 / 2 * (1 / |D|) := by field_simp
  rw [e3] at s1
  have hW : |w0| + 2 * n * |w| ≤ (1 + 16 / 5 / 2 ^ 24) * (|L| / |D| + n * (1 / |D|)) + 1 / 2 ^ 149 := by
    have t1 : |w0| ≤ (1 + 16 / 5 / 2 ^ 24) * (|L| / |D|) + 1 / 2 ^ 149 := by
      norm_num at s0 r0 ⊢
      linarith
    have t2 : 2 * |w| ≤ (1 + 16 / 5 / 2 ^ 24) * (1 / |D|) := by
      norm_num at s1 r1 ⊢
      linarith
    have := mul_le_mul_of_nonneg_left t2 hn0
    linarith
  have hR : (|L| + n) / |D| = |L| / |D| + n * (1 / |D|) := by ring
  rw [hR]
  generalize hRR : |L| / |D| + n * (1 / |D|) = R at *
  have hR0 : 0 ≤ R := by rw [← hRR]; positivity
  have hR1 : R ≤ 2 ^ 61 := by
    rw [← hRR]
    have := mul_le_mul hn1 hmB hm0 (by norm_num)
    norm_num at this hlB ⊢
    linarith
  have hRB : R * B ≤ 2 ^ 101 := (mul_le_mul hR1 hB hB0 (by norm_num)).trans (by norm_num)
  have hT' : ((List.zipWith (· * ·) (w0 :: List.replicate (2 * n) w) (c0 :: cs)).map (|·|)).sum ≤
      (1 + 16 / 5 / 2 ^ 24) * (R * B) + 1 / 2 ^ 149 * B :=
    hT.trans ((mul_le_mul_of_nonneg_right hW hB0).trans (le_of_eq (by ring)))
  obtain ⟨q, hq, e⟩ := C92_mean (by simp [hcs]) (by simp; omega) (hT'.trans (by
    norm_num at hRB hB ⊢
    linarith)) h
  refine ⟨q, hq, ?_⟩
  have hlen : ((w0 :: List.replicate (2 * n) w).length : ℚ) = 2 * n + 1 := by simp
  rw [hlen] at e
  -- exact sum with computed weights against exact weights
  have hsum : |(List.zipWith (· * ·) (w0 :: List.replicate (2 * n) w) (c0 :: cs)).sum -
      (L * c0 + cs.sum / 2) / D| ≤ 16 / 5 / 2 ^ 24 * (R * B) + 1 / 2 ^ 149 * B := by
    rw [hz, List.sum_cons, List.sum_map_mul_left, List.map_id']
    rw [show w0 * c0 + w * cs.sum - (L * c0 + cs.sum / 2) / D =
      (w0 - L / D) * c0 + (w - 1 / (2 * D)) * cs.sum by field_simp; ring]
    refine (abs_add_le _ _).trans ?_
    rw [abs_mul, abs_mul]
    have t1 := mul_le_mul r0 h0 (abs_nonneg _) ((abs_nonneg _).trans r0)
    have t2 := mul_le_mul r1 hcsum (abs_nonneg _) ((abs_nonneg _).trans r1)
    have t3 := mul_nonneg hl0 hB0
    refine (add_le_add t1 t2).trans ?_
    rw [← hRR]
    have e4 : 8 / 5 / 2 ^ 24 * (1 / |D|) * (2 * n * B) = 16 / 5 / 2 ^ 24 * (n * (1 / |D|) * B) := by ring
    have e5 : (203 / 100 / 2 ^ 24 * (|L| / |D|) + 1 / 2 ^ 149) * B =
      203 / 100 / 2 ^ 24 * (|L| / |D| * B) + 1 / 2 ^ 149 * B := by ring
    have e6 : 16 / 5 / 2 ^ 24 * ((|L| / |D| + n * (1 / |D|)) * B) =
      16 / 5 / 2 ^ 24 * (|L| / |D| * B) + 16 / 5 / 2 ^ 24 * (n * (1 / |D|) * B) := by ring
    rw [e4, e5, e6]
    norm_num at t3 ⊢
    linarith
  have f1 := abs_sub_le q (List.zipWith (· * ·) (w0 :: List.replicate (2 * n) w) (c0 :: cs)).sum
    ((L * c0 + cs.sum / 2) / D)
  have f2 : 1001 / 1000 * ((2 * n + 1) / 2 ^ 24) *
      ((List.zipWith (· * ·) (w0 :: List.replicate (2 * n) w) (c0 :: cs)).map (|·|)).sum ≤
      1001 / 1000 * ((2 * n + 1) / 2 ^ 24) * ((1 + 16 / 5 / 2 ^ 24) * (R * B) + 1 / 2 ^ 149 * B) :=
    mul_le_mul_of_nonneg_left hT' (by positivity)
  have f3 : 1001 / 1000 * (2 * n + 1) * (1 + 16 / 5 / 2 ^ 24) + 16 / 5 ≤ 2 * (n : ℚ) + 5 := by
    norm_num
    linarith
  have f4 := mul_le_mul_of_nonneg_right f3 (mul_nonneg hR0 hB0)
  have f5 : (n : ℚ) * B ≤ 100 * 2 ^ 40 := mul_le_mul hn1 hB hB0 (by norm_num)
  clear hT hT' hz r0 r1 s0 s1 hW hcsum
  generalize ((List.zipWith (· * ·) (w0 :: List.replicate (2 * n) w) (c0 :: cs)).map (|·|)).sum = T at *
  generalize (List.zipWith (· * ·) (w0 :: List.replicate (2 * n) w) (c0 :: cs)).sum = S at *
  generalize (L * c0 + cs.sum / 2) / D = m at *
  clear hc hL hD hDp hlB hmB hRB hRR hR1 hl0 hm0 h h0
  norm_num at f1 f2 f4 f5 hsum e hB ⊢
  linarith

/-- C91: the weights of the covariance: that of the state is λ/(n + λ) + (1 - α² + β) up to rounding,
the others are those of the mean. -/
theorem C91_covariance_weights {n : ℕ} (hn : n < 2 ^ 20) {a b L : ℚ} (ha : |a| ≤ 2 ^ 30) (hb : |b| ≤ 2 ^ 60)
    (hL : |L| ≤ 2 ^ 60) (hD : 1 / 2 ^ 60 ≤ |n + L|) :
    ∃ w0 : ℚ, (weightsF n (.fin a) (.fin b) (.fin L)).2 =
        .fin w0 :: (weightsF n (.fin a) (.fin b) (.fin L)).1.tail ∧
      |w0 - (L / (n + L) + (1 - a ^ 2 + b))| ≤
        5 / 2 ^ 24 * (|L| / |n + L| + 1 + a ^ 2 + |b|) := by
  obtain ⟨w0, w, e1, e2, r0, -⟩ := weights_fin hn hL hD
  have hDp : 0 < |(n : ℚ) + L| := lt_of_lt_of_le (by norm_num) hD
  have hl0 : 0 ≤ |L| / |n + L| := by positivity
  have hlB : |L| / |n + L| ≤ 2 ^ 120 := by
    rw [div_le_iff₀ hDp]
    have := mul_le_mul_of_nonneg_left hD (show (0 : ℚ) ≤ 2 ^ 120 by norm_num)
    norm_num at this hL ⊢
    linarith
  have haa : a ^ 2 ≤ 2 ^ 60 := by
    rw [← sq_abs]
    exact (pow_le_pow_left₀ (abs_nonneg _) ha 2).trans (by norm_num)
  have haa0 := sq_nonneg a
  have q1 : FP.mul binary32 (.fin a) (.fin a) = .fin (binary32.round (a ^ 2)) := by
    rw [sq]
    exact b32_ofRat (by rw [← sq, abs_of_nonneg haa0]; exact haa.trans (by norm_num))
  have c1 := b32_std (a ^ 2)
  rw [abs_of_nonneg haa0] at c1
  generalize binary32.round (a ^ 2) = r at *
  have d1 : |1 - r| ≤ 1 + a ^ 2 + |r - a ^ 2| := by
    have h1 := abs_sub 1 (r : ℚ)
    have h2 := abs_sub_abs_le_abs_sub r (a ^ 2)
    rw [abs_one] at h1
    rw [abs_of_nonneg haa0] at h2
    linarith
  have q2 : FP.sub binary32 (.fin 1) (.fin r) = .fin (binary32.round (1 - r)) :=
    b32_ofRat (by norm_num at d1 c1 haa ⊢; linarith)
  have c2 := b32_std (1 - r)
  generalize binary32.round (1 - r) = g at *
  have d2 : |g + b| ≤ |1 - r| + |g - (1 - r)| + |b| := by
    have h1 := abs_add_le g b
    have h2 := abs_sub_abs_le_abs_sub g (1 - r)
    linarith
  have q3 : FP.add binary32 (.fin g) (.fin b) = .fin (binary32.round (g + b)) :=
    b32_ofRat (by norm_num at d1 d2 c1 c2 haa hb ⊢; linarith)
  have c3 := b32_std (g + b)
  generalize binary32.round (g + b) = k at *
  have d3 : |w0 + k| ≤ |L| / |n + L| + |w0 - L / (n + L)| + |g + b| + |k - (g + b)| := by
    have h1 := abs_add_le w0 k
    have h2 := abs_sub_abs_le_abs_sub k (g + b)
    have h3 := abs_sub_abs_le_abs_sub w0 (L / (n + L))
    rw [abs_div] at h3
    linarith
  have q4 : FP.add binary32 (.fin w0) (.fin k) = .fin (binary32.round (w0 + k)) :=
    b32_ofRat (by norm_num at d1 d2 d3 c1 c2 c3 haa hb r0 hlB ⊢; linarith)
  have c4 := b32_std (w0 + k)
  refine ⟨binary32.round (w0 + k), ?_, ?_⟩
  · unfold weightsF wc0F
    rw [q1, q2, q3]
    unfold wm0F at *
    rw [e1, q4]
    simp
  · generalize binary32.round (w0 + k) = z at *
    have h1 := abs_add_le (z - (w0 + k)) ((w0 - L / (n + L)) + ((k - (g + b)) + ((g - (1 - r)) + -(r - a ^ 2))))
    have h2 := abs_add_le (w0 - L / (n + L)) ((k - (g + b)) + ((g - (1 - r)) + -(r - a ^ 2)))
    have h3 := abs_add_le (k - (g + b)) ((g - (1 - r)) + -(r - a ^ 2))
    have h4 := abs_add_le (g - (1 - r)) (-(r - a ^ 2))
    rw [abs_neg] at h4
    rw [show z - (w0 + k) + ((w0 - L / (n + L)) + ((k - (g + b)) + ((g - (1 - r)) + -(r - a ^ 2)))) =
      z - (L / (n + L) + (1 - a ^ 2 + b)) by ring] at h1
    have hb0 := abs_nonneg b
    generalize |L| / |n + L| = l at *
    norm_num at d1 d2 d3 c1 c2 c3 c4 r0 h1 h2 h3 h4 ⊢
    linarith

/-! ### Consequences for association -/

section
variable {S₁ C₁ S₂ C₂ : Type}

theorem euclidF_notFin {s t : FPose} (h : ∃ c ∈ [s.x, s.y, s.yaw, t.x, t.y, t.yaw], ∀ q, c ≠ .fin q) :
    (euclidF s t).NotFin := by
  have hd : ∀ a b c : FP, a.NotFin ∨ b.NotFin ∨ c.NotFin → (dot3 a b c).NotFin := by
    intro a b c h
    unfold dot3
    rcases h with h | h | h
    · exact notFin_add (.inl (notFin_add (.inl (notFin_mul (.inl h)))))
    · exact notFin_add (.inl (notFin_add (.inr (notFin_mul (.inl h)))))
    · exact notFin_add (.inr (notFin_mul (.inl h)))
  have hc : ∀ {c : FP}, (∀ q, c ≠ .fin q) → (FP.conv binary32 c).NotFin := by
    intro c h
    cases c with
    | fin q => exact absurd rfl (h q)
    | nan => exact fun q => by simp [FP.conv]
    | inf s => exact fun q => by simp [FP.conv]
  have hsq : ∀ {c : FP}, c.NotFin → (FP.sqrt binary32 c).NotFin := by
    intro c h
    cases c with
    | fin q => exact absurd rfl (h q)
    | nan => exact fun q => by simp [FP.sqrt]
    | inf s => cases s <;> exact fun q => by simp [FP.sqrt]
  unfold euclidF
  simp only [FPose.toFloat]
  apply hsq
  apply hd
  obtain ⟨c, hm, h⟩ := h
  have h' := hc h
  simp only [List.mem_cons, List.not_mem_nil, or_false] at hm
  rcases hm with rfl | rfl | rfl | rfl | rfl | rfl
  · exact .inl (notFin_sub_left h')
  · exact .inr (.inl (notFin_sub_left h'))
  · exact .inr (.inr (notFin_sub_left h'))
  · exact .inl (notFin_sub h')
  · exact .inr (.inl (notFin_sub h'))
  · exact .inr (.inr (notFin_sub h'))

/-- C86: with different UUIDs, one track or detection with an infinite or NaN coordinate or heading
is enough to make the associator undefined, as soon as there is a counterpart of the same kind. -/
theorem C86_nonfinite_pose {solve : Solver} (hs : IsPermSolver solve) (pose₁ : S₁ → FPose)
    (pose₂ : S₂ → FPose) (tracks detections : List (Obj2 S₁ C₁ S₂ C₂))
    (hbig : (scoreTracksAndDetections tracks detections
      (euclidMetric pose₁ pose₂)).entries.length < 2 ^ 64)
    (hT : (tracks.map TrackOps.uuid).Nodup) (hD : (detections.map TrackOps.uuid).Nodup)
    {t d : Obj2 S₁ C₁ S₂ C₂} (ht : t ∈ tracks) (hd : d ∈ detections) (hk : t.isLeft = d.isLeft)
    (hn : ∃ o ∈ [t, d], ∃ c ∈ [(poseOf pose₁ pose₂ o).x, (poseOf pose₁ pose₂ o).y,
      (poseOf pose₁ pose₂ o).yaw], ∀ q, c ≠ .fin q) :
    (gnnAssociator solve (scoreTracksAndDetections tracks detections
      (euclidMetric pose₁ pose₂))).IsUb := by
  have hmet : euclidMetric pose₁ pose₂ t d =
      some (euclidF (poseOf pose₁ pose₂ t) (poseOf pose₁ pose₂ d)) := by
    cases t <;> cases d <;> first | rfl | exact absurd hk (by simp)
  have hnf : (euclidF (poseOf pose₁ pose₂ t) (poseOf pose₁ pose₂ d)).NotFin := by
    apply euclidF_notFin
    obtain ⟨o, ho, c, hc, hq⟩ := hn
    refine ⟨c, ?_, hq⟩
    simp only [List.mem_cons, List.not_mem_nil, or_false] at ho hc ⊢
    rcases ho with rfl | rfl
    · tauto
    · tauto
  have hfind := C16_value_of_distinct tracks detections (euclidMetric pose₁ pose₂) hT hD ht hd
  rw [hmet] at hfind
  refine (C86_ub_iff hs pose₁ pose₂ tracks detections hbig).1.2
    (.inr (.inl ⟨mkPair (TrackOps.uuid t) (TrackOps.uuid d), ?_⟩))
  rw [hfind]
  rcases C85_range (poseOf pose₁ pose₂ t) (poseOf pose₁ pose₂ d) with h | h | ⟨q, h, -⟩
  · exact .inl (by rw [h])
  · exact .inr (by rw [h])
  · exact absurd h (hnf q)

/-- C91: with such parameters, association of predicted tracks has undefined behaviour: one track
whose x coordinate is an entry of the predicted mean and a detection of the same kind are enough. -/
theorem C91_breakdown_association {n : ℕ} {a k b : ℚ} (hn : 1 ≤ n) (hn' : n < 2 ^ 20) (ha : |a| ≤ 2 ^ 50)
    (hk : |k| ≤ 2 ^ 50) (h0 : 0 ≤ n + k) (hP : a * a * (n + k) ≤ n / 2 ^ 26) (hb : |b| ≤ 2 ^ 100)
    {solve : Solver} (hs : IsPermSolver solve) (pose₁ : S₁ → FPose)
    (pose₂ : S₂ → FPose) (tracks detections : List (Obj2 S₁ C₁ S₂ C₂))
    (hbig : (scoreTracksAndDetections tracks detections
      (euclidMetric pose₁ pose₂)).entries.length < 2 ^ 64)
    (hT : (tracks.map TrackOps.uuid).Nodup) (hD : (detections.map TrackOps.uuid).Nodup)
    {t d : Obj2 S₁ C₁ S₂ C₂} (ht : t ∈ tracks) (hd : d ∈ detections) (htd : t.isLeft = d.isLeft)
    {column : List FP} (hc : column.length = 2 * n + 1)
    (hm : IsMeanF (weightsF n (.fin a) (.fin b) (lambdaF n (.fin a) (.fin k))).1 column
      (poseOf pose₁ pose₂ t).x) :
    (gnnAssociator solve (scoreTracksAndDetections tracks detections
      (euclidMetric pose₁ pose₂))).IsUb := by
  refine C86_nonfinite_pose hs pose₁ pose₂ tracks detections hbig hT hD ht hd htd
    ⟨t, by simp, _, List.mem_cons_self, ?_⟩
  rw [(C91_breakdown hn hn' ha hk h0 hP hb).2] at hm
  obtain _ | ⟨c0, column⟩ := column
  · simp at hc
  exact SumsTo.notFin hm ⟨_, List.mem_cons_self, notFin_mul (.inl (notFin_inf _))⟩

end

/-! ### Examples -/

/-- the default weights -/
example : weightsF 5 (.fin 1) (.fin 1) (lambdaF 5 (.fin 1) (.fin 2)) =
    (.fin (9586981 / 33554432) :: List.replicate 10 (.fin (9586981 / 134217728)),
     .fin (10785353 / 8388608) :: List.replicate 10 (.fin (9586981 / 134217728))) := by
  decide +kernel

example : IsMeanF [.fin (1 / 2), .fin (1 / 4), .fin (1 / 4)] [.fin 1, .fin 2, .fin 3] (.fin (7 / 4)) := by
  have := leftSum_sums (l := List.zipWith (FP.mul binary32) [.fin (1 / 2), .fin (1 / 4), .fin (1 / 4)]
    [.fin 1, .fin 2, .fin 3]) (by decide +kernel)
  rwa [show leftSum _ = .fin (7 / 4) by decide +kernel] at this

example : |(2 : ℚ)| ≤ 2 ^ 20 ∧ (1 : ℚ) / 2 ^ 40 ≤ |((5 : ℕ) : ℚ) + 2| ∧ (5000000 : ℚ) ≤ 2 ^ 40 := by norm_num

end Mot.Props
