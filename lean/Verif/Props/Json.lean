import Verif.Proofs.Json
import Mathlib.Tactic.NormNum
/-!
# Properties of JSON input (C63 – C65)

`rf` is the rounding of a number to `float`; the theorems hold for any.
-/

namespace Mot.Props

open Mot Json Spec

variable (rf : ℝ → ℝ)

/-! ## C63 -/

/-- C63: exactly the arrays of at least `n²` numbers are read, row by row. -/
theorem C63_row_major (n : ℕ) (j : Json) (C : Matrix (Fin n) (Fin n) ℝ) :
    covFromJson rf n j = .ok C ↔ IsRowMajor rf j C := covFromJson_ok_iff

/-- C63: element `i·n + j` of the array is entry `(i, j)`, in particular for arrays of numbers. -/
theorem C63_entries (n : ℕ) (l : List ℝ) (h : n * n ≤ l.length) :
    ∃ C, covFromJson rf n (.arr (l.map .num)) = .ok C ∧
      ∀ (r c : Fin n) (x : ℝ), l[r.1 * n + c.1]? = some x → C r c = rf x := by
  refine ⟨fun r c => rf (l.getD (r.1 * n + c.1) 0), (C63_row_major rf n _ _).2
    ⟨_, rfl, by simpa using h, ?_, ?_⟩, ?_⟩
  · intro e he
    obtain ⟨x, -, rfl⟩ := List.mem_map.1 he
    exact ⟨_, .num x⟩
  · intro r c e he
    rw [List.getElem?_map, Option.map_eq_some_iff] at he
    obtain ⟨x, h1, rfl⟩ := he
    show ReadsAs rf _ (rf (l.getD (r.1 * n + c.1) 0))
    rw [List.getD_eq_getElem?_getD, h1]
    exact .num x
  · intro r c x hx
    show rf (l.getD (r.1 * n + c.1) 0) = rf x
    rw [List.getD_eq_getElem?_getD, hx, Option.getD_some]

/-- C63: a shorter array of numbers is not rejected; memory outside the array is read. -/
theorem C63_short_is_ub (n : ℕ) (l : List Json) (h : ∀ e ∈ l, ∃ x, ReadsAs rf e x)
    (hl : l.length < n * n) : covFromJson rf n (.arr l) = .ub .oobRead :=
  covFromJson_short h hl

/-- C63: there is no other undefined behaviour: anything but an array of numbers is rejected. -/
theorem C63_rejects (n : ℕ) (j : Json) (h : ¬ ∃ l, j = .arr l ∧ ∀ e ∈ l, ∃ x, ReadsAs rf e x) :
    covFromJson rf n j = .throw .jsonError := by
  have hf : j.getFloats rf = .throw .jsonError := by
    cases j with
    | arr l =>
      rw [Json.getFloats]
      rcases hm : Outcome.mapM' (getFloat rf) l with xs | e | w
      · refine absurd ⟨l, rfl, fun e he => ?_⟩ h
        have h1 := Outcome.mapM'_ok_iff.1 hm
        obtain ⟨i, hi, rfl⟩ := List.mem_iff_getElem.1 he
        exact ⟨_, getFloat_ok_iff.1 ((List.forall₂_iff_get.1 h1).2 i hi (h1.length_eq ▸ hi))⟩
      · obtain ⟨_, a, _, _, _, h1⟩ := Outcome.mapM'_throw_iff.1 hm
        cases a <;> simp only [Json.getFloat, reduceCtorEq, Outcome.throw.injEq] at h1 <;> rw [← h1]
      · obtain ⟨_, a, _, _, _, h1⟩ := Outcome.mapM'_ub_iff.1 hm
        exact absurd h1 getFloat_ne_ub
    | _ => rfl
  unfold covFromJson
  rw [hf]
  rfl

/-- the 2×2 case -/
example : covFromJson rf 2 (.arr [.num 1, .num 2, .num 3, .num 4]) = .ok !![rf 1, rf 2; rf 3, rf 4] := by
  refine (C63_row_major rf 2 _ _).2 ⟨_, rfl, by decide, ?_, ?_⟩
  · intro e he
    simp only [List.mem_cons, List.not_mem_nil, or_false] at he
    rcases he with rfl | rfl | rfl | rfl <;> exact ⟨_, .num _⟩
  · intro r c e
    fin_cases r <;> fin_cases c <;> (intro h; cases h; exact .num _)

/-! ## C64 -/

/-- C64: the variant loaders succeed exactly if the document lists entries that each describe
an object of the motion model they declare; they return these objects in the same order. -/
theorem C64_variant (file : Option Json) (os : List (Obj2 CtrvState CtrvCov CtraState CtraCov)) :
    (detectionsFromJson rf file = .ok os ↔
      ∃ l, Lists file "detections" l ∧ List.Forall₂ (IsEntry rf) l os) ∧
    (tracksFromJson rf file = .ok os ↔
      ∃ l, Lists file "tracks" l ∧ List.Forall₂ (IsEntry rf) l os) := by
  have : (fun j o => variantEntry rf j = .ok o) = IsEntry rf := by
    funext j o; exact propext variantEntry_ok_iff
  constructor
  · unfold detectionsFromJson; rw [load_ok_iff, this]
  · unfold tracksFromJson; rw [load_ok_iff, this]

/-- C64: the same for the CTRV loaders. -/
theorem C64_ctrv (file : Option Json) (os : List (DynObj CtrvState CtrvCov)) :
    (ctrvDetectionsFromJson rf file = .ok os ↔ ∃ l, Lists file "detections" l ∧
      List.Forall₂ (fun j o => Declares j "ctrv" ∧ IsCtrv rf j o) l os) ∧
    (ctrvTracksFromJson rf file = .ok os ↔ ∃ l, Lists file "tracks" l ∧
      List.Forall₂ (fun j o => Declares j "ctrv" ∧ IsCtrv rf j o) l os) := by
  have : (fun j o => ctrvEntry rf j = .ok o) = fun j o => Declares j "ctrv" ∧ IsCtrv rf j o := by
    funext j o; exact propext ctrvEntry_ok_iff
  constructor
  · unfold ctrvDetectionsFromJson; rw [load_ok_iff, this]
  · unfold ctrvTracksFromJson; rw [load_ok_iff, this]

/-- C64: the same for the CTRA loaders. -/
theorem C64_ctra (file : Option Json) (os : List (DynObj CtraState CtraCov)) :
    (ctraDetectionsFromJson rf file = .ok os ↔ ∃ l, Lists file "detections" l ∧
      List.Forall₂ (fun j o => Declares j "ctra" ∧ IsCtra rf j o) l os) ∧
    (ctraTracksFromJson rf file = .ok os ↔ ∃ l, Lists file "tracks" l ∧
      List.Forall₂ (fun j o => Declares j "ctra" ∧ IsCtra rf j o) l os) := by
  have : (fun j o => ctraEntry rf j = .ok o) = fun j o => Declares j "ctra" ∧ IsCtra rf j o := by
    funext j o; exact propext ctraEntry_ok_iff
  constructor
  · unfold ctraDetectionsFromJson; rw [load_ok_iff, this]
  · unfold ctraTracksFromJson; rw [load_ok_iff, this]

/-- C64: an entry of another motion model after well-formed entries makes the loaders throw
`std::runtime_error`. -/
theorem C64_unsupported (file : Option Json) (key : String) (l₁ l₂ : List Json) (j : Json)
    (m : List (Fin 256)) (h : Lists file key (l₁ ++ j :: l₂))
    (hm : HasField j (lit "motion_model") (.str m)) :
    (m ≠ lit "ctrv" → (∀ x ∈ l₁, ∃ o, IsEntry rf x (.inl o)) →
      loadJson (ctrvEntry rf) key file = .throw .runtimeError) ∧
    (m ≠ lit "ctra" → (∀ x ∈ l₁, ∃ o, IsEntry rf x (.inr o)) →
      loadJson (ctraEntry rf) key file = .throw .runtimeError) ∧
    (m ≠ lit "ctrv" → m ≠ lit "ctra" → (∀ x ∈ l₁, ∃ o, IsEntry rf x o) →
      loadJson (variantEntry rf) key file = .throw .runtimeError) := by
  refine ⟨fun h1 h2 => load_throw h ?_ ?_, fun h1 h2 => load_throw h ?_ ?_,
    fun h1 h2 h3 => load_throw h ?_ ?_⟩
  · intro x hx; obtain ⟨o, ho⟩ := h2 x hx; exact ⟨o, ctrvEntry_ok_iff.2 ho⟩
  · unfold ctrvEntry; rw [model_eq hm, if_neg h1]
  · intro x hx; obtain ⟨o, ho⟩ := h2 x hx; exact ⟨o, ctraEntry_ok_iff.2 ho⟩
  · unfold ctraEntry; rw [model_eq hm, if_neg h1]
  · intro x hx; obtain ⟨o, ho⟩ := h3 x hx; exact ⟨o, variantEntry_ok_iff.2 ho⟩
  · unfold variantEntry; rw [model_eq hm, if_neg h1, if_neg h2]

/-- C64: no document with an entry of an unsupported motion model is loaded, whatever else it
contains. -/
theorem C64_never_loaded (file : Option Json) (key : String) (l : List Json) (j : Json)
    (m : List (Fin 256)) (h : Lists file key l) (hj : j ∈ l)
    (hm : HasField j (lit "motion_model") (.str m)) :
    (m ≠ lit "ctrv" → ¬ (loadJson (ctrvEntry rf) key file).IsOk) ∧
    (m ≠ lit "ctra" → ¬ (loadJson (ctraEntry rf) key file).IsOk) ∧
    (m ≠ lit "ctrv" → m ≠ lit "ctra" → ¬ (loadJson (variantEntry rf) key file).IsOk) := by
  have key {τ : Type} (entry : Json → Outcome τ) (he : entry j = .throw .runtimeError) :
      ¬ (loadJson entry key file).IsOk := by
    rw [Outcome.isOk_iff]
    rintro ⟨os, hos⟩
    rw [load_of_lists h, Outcome.mapM'_ok_iff] at hos
    obtain ⟨i, hi, rfl⟩ := List.mem_iff_getElem.1 hj
    have := (List.forall₂_iff_get.1 hos).2 i hi (hos.length_eq ▸ hi)
    rw [List.get_eq_getElem, he] at this
    cases this
  refine ⟨fun h1 => key _ ?_, fun h1 => key _ ?_, fun h1 h2 => key _ ?_⟩
  · unfold ctrvEntry; rw [model_eq hm, if_neg h1]
  · unfold ctraEntry; rw [model_eq hm, if_neg h1]
  · unfold variantEntry; rw [model_eq hm, if_neg h1, if_neg h2]

/-- C64: the only undefined behaviour is a covariance array that is too short. -/
theorem C64_ub (file : Option Json) (key : String) (w : Why) :
    (loadJson (ctrvEntry rf) key file = .ub w →
      w = .oobRead ∧ ∃ l, Lists file key l ∧ ∃ j ∈ l, ShortCovariance 5 j) ∧
    (loadJson (ctraEntry rf) key file = .ub w →
      w = .oobRead ∧ ∃ l, Lists file key l ∧ ∃ j ∈ l, ShortCovariance 6 j) ∧
    (loadJson (variantEntry rf) key file = .ub w →
      w = .oobRead ∧ ∃ l, Lists file key l ∧ ∃ j ∈ l,
        (Declares j "ctrv" ∧ ShortCovariance 5 j) ∨ (Declares j "ctra" ∧ ShortCovariance 6 j)) := by
  refine ⟨fun h => ?_, fun h => ?_, fun h => ?_⟩
  · obtain ⟨l, hl, j, hj, h1⟩ := load_ub_mem h
    exact ⟨(ctrvEntry_ub h1).1, l, hl, j, hj, (ctrvEntry_ub h1).2⟩
  · obtain ⟨l, hl, j, hj, h1⟩ := load_ub_mem h
    exact ⟨(ctraEntry_ub h1).1, l, hl, j, hj, (ctraEntry_ub h1).2⟩
  · obtain ⟨l, hl, j, hj, h1⟩ := load_ub_mem h
    exact ⟨(variantEntry_ub h1).1, l, hl, j, hj, (variantEntry_ub h1).2⟩

/-- C64: a document with an entry of an unsupported motion model makes the loaders throw,
whatever else it contains, unless the covariance array of some entry is too short. -/
theorem C64_throws (file : Option Json) (key : String) (l : List Json) (j : Json)
    (m : List (Fin 256)) (h : Lists file key l) (hj : j ∈ l)
    (hm : HasField j (lit "motion_model") (.str m)) :
    (m ≠ lit "ctrv" → (∀ x ∈ l, ¬ ShortCovariance 5 x) →
      ∃ e, loadJson (ctrvEntry rf) key file = .throw e) ∧
    (m ≠ lit "ctra" → (∀ x ∈ l, ¬ ShortCovariance 6 x) →
      ∃ e, loadJson (ctraEntry rf) key file = .throw e) ∧
    (m ≠ lit "ctrv" → m ≠ lit "ctra" →
      (∀ x ∈ l, ¬ (Declares x "ctrv" ∧ ShortCovariance 5 x) ∧
        ¬ (Declares x "ctra" ∧ ShortCovariance 6 x)) →
      ∃ e, loadJson (variantEntry rf) key file = .throw e) := by
  have one {τ : Type} {o : Outcome τ} (h1 : ¬ o.IsOk) (h2 : ∀ w, o ≠ .ub w) :
      ∃ e, o = .throw e := by
    cases o with
    | ok a => exact absurd (Outcome.isOk_iff.2 ⟨a, rfl⟩) h1
    | throw e => exact ⟨e, rfl⟩
    | ub w => exact absurd rfl (h2 w)
  have huniq {l' : List Json} (h' : Lists file key l') : l' = l := by
    obtain ⟨a, b, h1, h2, h3⟩ := h
    obtain ⟨a', b', h1', h2', h3'⟩ := h'
    obtain rfl : a' = a := Option.some.inj (h1'.symm.trans h1)
    obtain rfl : b' = b := hasField_unique h2' h2
    cases h3 <;> cases h3' <;> rfl
  obtain ⟨n1, n2, n3⟩ := C64_never_loaded rf file key l j m h hj hm
  refine ⟨fun h1 h2 => one (n1 h1) fun w hw => ?_, fun h1 h2 => one (n2 h1) fun w hw => ?_,
    fun h1 h2 h3 => one (n3 h1 h2) fun w hw => ?_⟩
  · obtain ⟨-, l', hl', x, hx, hs⟩ := (C64_ub rf file key w).1 hw
    exact h2 x (huniq hl' ▸ hx) hs
  · obtain ⟨-, l', hl', x, hx, hs⟩ := (C64_ub rf file key w).2.1 hw
    exact h2 x (huniq hl' ▸ hx) hs
  · obtain ⟨-, l', hl', x, hx, hs⟩ := (C64_ub rf file key w).2.2 hw
    exact hs.elim (h3 x (huniq hl' ▸ hx)).1 (h3 x (huniq hl' ▸ hx)).2

/-- an entry that is not even an object, then one of an unsupported model -/
example : ∃ e, tracksFromJson rf (some (.obj [(lit "tracks",
    .arr [.num 1, .obj [(lit "motion_model", .str (lit "ca"))]])])) = .throw e := by
  refine (C64_throws rf _ _ _ (.obj [(lit "motion_model", .str (lit "ca"))]) (lit "ca")
    ⟨_, _, rfl, .here _ _ _, .arr _⟩ (by simp) (.here _ _ _)).2.2 (by decide) (by decide) ?_
  intro x hx
  have hno (m : String) (n : ℕ) (hm : lit m = lit "ctrv" ∨ lit m = lit "ctra") :
      ¬ (Declares x m ∧ ShortCovariance n x) := by
    rintro ⟨hd, -⟩
    simp only [List.mem_cons, List.not_mem_nil, or_false] at hx
    obtain rfl | rfl := hx
    · cases hd
    · have := Json.str.inj (hasField_unique hd (.here _ _ _))
      rw [this] at hm
      revert hm; decide
  exact ⟨hno "ctrv" 5 (.inl rfl), hno "ctra" 6 (.inr rfl)⟩

/-- a complete entry -/
def sampleEntry : Json := .obj
  [(lit "covariance", .arr (List.replicate 25 (.num 1))),
   (lit "motion_model", .str (lit "ctrv")),
   (lit "state", .obj [(lit "position_x_m", .num 1), (lit "position_y_m", .num 2),
     (lit "velocity_mps", .num 3), (lit "yaw_rad", .num 4), (lit "yaw_rate_rad_per_s", .num 5)]),
   (lit "timestamp_sec", .num 6),
   (lit "uuid", .str (lit "id"))]

/-- its object -/
noncomputable def sampleCtrv : DynObj CtrvState CtrvCov :=
  ⟨6, ⟨1, 2, 3, Angle.ofRad 4, 5⟩, fun _ _ => rf 1, ⟨lit "id"⟩, .unknown⟩

theorem sampleEntry_isEntry : IsEntry rf sampleEntry (.inl (sampleCtrv rf)) := by
  have field (j v : Json) (k : String) (h : j.at' k = .ok v) : HasField j (lit k) v := at'_ok_iff.1 h
  refine ⟨field _ _ _ rfl, field _ _ _ rfl, ⟨_, field _ _ _ rfl, field _ _ _ rfl, field _ _ _ rfl,
    field _ _ _ rfl, ⟨_, field _ _ _ rfl, isAngle_iff.2 rfl⟩, field _ _ _ rfl⟩,
    ⟨_, field _ _ _ rfl, _, rfl, by decide, ?_, ?_⟩, field _ _ _ rfl, rfl⟩
  · intro e he
    rw [List.eq_of_mem_replicate he]
    exact ⟨_, .num 1⟩
  · intro r c e he
    rw [List.getElem?_replicate] at he
    split at he
    · cases he; exact .num 1
    · cases he

/-- a document that is loaded, and one that is rejected because of its second entry -/
example : detectionsFromJson rf (some (.obj [(lit "detections", .arr [sampleEntry])])) =
      .ok [.inl (sampleCtrv rf)] ∧
    ctraDetectionsFromJson rf (some (.obj [(lit "detections", .arr [sampleEntry])])) =
      .throw .runtimeError ∧
    tracksFromJson rf (some (.obj [(lit "tracks",
      .arr [sampleEntry, .obj [(lit "motion_model", .str (lit "ca"))]])])) = .throw .runtimeError := by
  refine ⟨(C64_variant rf _ _).1.2 ⟨_, ⟨_, _, rfl, .here _ _ _, .arr _⟩,
      .cons (sampleEntry_isEntry rf) .nil⟩,
    (C64_unsupported rf _ _ [] [] sampleEntry (lit "ctrv") ⟨_, _, rfl, .here _ _ _, .arr _⟩
      (sampleEntry_isEntry rf).1).2.1 (by decide) (by simp),
    (C64_unsupported rf _ _ [sampleEntry] [] _ (lit "ca") ⟨_, _, rfl, .here _ _ _, .arr _⟩
      (.here _ _ _)).2.2 (by decide) (by decide) ?_⟩
  intro x hx
  rw [List.mem_singleton.1 hx]
  exact ⟨_, sampleEntry_isEntry rf⟩

/-! ## C65 -/

/-- C65 as stated is false for every value of every type: writing a value and reading it back
throws. -/
theorem C65_false :
    (∀ x : Uuid, uuidFromJson (jsonOf x) = .throw .jsonError) ∧
    (∀ x : CtrvState, ctrvStateFromJson (jsonOf x) = .throw .jsonError) ∧
    (∀ x : CtraState, ctraStateFromJson (jsonOf x) = .throw .jsonError) ∧
    (∀ x : CtrvCov, covFromJson rf 5 (jsonOf x) = .throw .jsonError) ∧
    (∀ x : CtraCov, covFromJson rf 6 (jsonOf x) = .throw .jsonError) ∧
    (∀ x : DynObj CtrvState CtrvCov, ctrvFromJson rf (jsonOf x) = .throw .jsonError) ∧
    (∀ x : DynObj CtraState CtraCov, ctraFromJson rf (jsonOf x) = .throw .jsonError) :=
  ⟨fun _ => rfl, fun _ => rfl, fun _ => rfl, fun _ => rfl, fun _ => rfl, fun _ => rfl, fun _ => rfl⟩

/-- C65: what the writers write is JSON null, whatever the object. -/
theorem C65_written_is_null {α : Type} (x : α) : jsonOf x = .null := rfl

/-- C65, what holds instead: every object with a `float` covariance and the default class can
be read from some document, i.e. `from_json` is onto these.

Missing: that `to_json` produces this document (it writes nothing, `C65_false`). -/
theorem C65_readable_partial (o : DynObj CtrvState CtrvCov) (hy : ‖o.state.yaw.value‖ = 1)
    (hc : ∀ i j, rf (o.covariance i j) = o.covariance i j) (hk : o.semanticClass = .unknown) :
    ∃ j, ctrvFromJson rf j = .ok o := by
  refine ⟨.obj [(lit "timestamp_sec", .num o.timestamp),
    (lit "state", .obj [(lit "position_x_m", .num o.state.x), (lit "position_y_m", .num o.state.y),
      (lit "velocity_mps", .num o.state.v), (lit "yaw_rad", .num o.state.yaw.getAngle),
      (lit "yaw_rate_rad_per_s", .num o.state.yawRate)]),
    (lit "covariance", .arr ((List.finRange 5).flatMap fun i => (List.finRange 5).map fun j =>
      .num (o.covariance i j))),
    (lit "uuid", .str o.uuid.value)], ctrv_ok_iff.2 ?_⟩
  have field (j v : Json) (k : String) (h : j.at' k = .ok v) : HasField j (lit k) v := at'_ok_iff.1 h
  refine ⟨field _ _ _ rfl, ⟨_, field _ _ _ rfl, field _ _ _ rfl, field _ _ _ rfl, field _ _ _ rfl,
    ⟨_, field _ _ _ rfl, hy, SameDir.refl _⟩, field _ _ _ rfl⟩,
    ⟨_, field _ _ _ rfl, _, rfl, Nat.le_of_eq rfl, ?_, ?_⟩, field _ _ _ rfl, hk⟩
  · intro e he
    simp only [List.mem_flatMap, List.mem_map] at he
    obtain ⟨_, _, _, _, rfl⟩ := he
    exact ⟨_, .num _⟩
  · intro r c e he
    rw [← hc r c]
    fin_cases r <;> fin_cases c <;> (cases he; exact .num _)

/-- C65 (CTRA), what holds instead; missing: as for CTRV. -/
theorem C65_readable_ctra_partial (o : DynObj CtraState CtraCov) (hy : ‖o.state.yaw.value‖ = 1)
    (hc : ∀ i j, rf (o.covariance i j) = o.covariance i j) (hk : o.semanticClass = .unknown) :
    ∃ j, ctraFromJson rf j = .ok o := by
  refine ⟨.obj [(lit "timestamp_sec", .num o.timestamp),
    (lit "state", .obj [(lit "position_x_m", .num o.state.x), (lit "position_y_m", .num o.state.y),
      (lit "velocity_mps", .num o.state.v), (lit "yaw_rad", .num o.state.yaw.getAngle),
      (lit "yaw_rate_rad_per_s", .num o.state.yawRate),
      (lit "acceleration_mps_sq", .num o.state.a)]),
    (lit "covariance", .arr ((List.finRange 6).flatMap fun i => (List.finRange 6).map fun j =>
      .num (o.covariance i j))),
    (lit "uuid", .str o.uuid.value)], ctra_ok_iff.2 ?_⟩
  have field (j v : Json) (k : String) (h : j.at' k = .ok v) : HasField j (lit k) v := at'_ok_iff.1 h
  refine ⟨field _ _ _ rfl, ⟨_, field _ _ _ rfl, field _ _ _ rfl, field _ _ _ rfl, field _ _ _ rfl,
    ⟨_, field _ _ _ rfl, hy, SameDir.refl _⟩, field _ _ _ rfl, field _ _ _ rfl⟩,
    ⟨_, field _ _ _ rfl, _, rfl, Nat.le_of_eq rfl, ?_, ?_⟩, field _ _ _ rfl, hk⟩
  · intro e he
    simp only [List.mem_flatMap, List.mem_map] at he
    obtain ⟨_, _, _, _, rfl⟩ := he
    exact ⟨_, .num _⟩
  · intro r c e he
    rw [← hc r c]
    fin_cases r <;> fin_cases c <;> (cases he; exact .num _)

theorem rowMajor_float {n : ℕ} {j : Json} {C : Matrix (Fin n) (Fin n) ℝ}
    (h2 : ∀ x, rf (rf x) = rf x) (h0 : rf 0 = 0) (h1 : rf 1 = 1) (h : IsRowMajor rf j C) (r c : Fin n) :
    rf (C r c) = C r c := by
  obtain ⟨l, rfl, hlen, -, hl⟩ := h
  have hlt : r.1 * n + c.1 < l.length := by
    refine lt_of_lt_of_le ?_ hlen
    have := r.2
    have := c.2
    calc r.1 * n + c.1 < r.1 * n + n := by omega
      _ = (r.1 + 1) * n := by ring
      _ ≤ n * n := Nat.mul_le_mul_right n (by omega)
  have := hl r c _ (List.getElem?_eq_getElem hlt)
  generalize C r c = x at this ⊢
  generalize l[r.1 * n + c.1] = e at this
  cases this with
  | num x => exact h2 x
  | no => exact h0
  | yes => exact h1

/-- C65: the objects that can be read from some document are exactly those with a yaw of length 1, a
`float` covariance and the default class. -/
theorem C65_readable_iff (h2 : ∀ x, rf (rf x) = rf x) (h0 : rf 0 = 0) (h1 : rf 1 = 1) :
    (∀ o : DynObj CtrvState CtrvCov, (∃ j, ctrvFromJson rf j = .ok o) ↔
      ‖o.state.yaw.value‖ = 1 ∧ (∀ i j, rf (o.covariance i j) = o.covariance i j) ∧
        o.semanticClass = .unknown) ∧
    ∀ o : DynObj CtraState CtraCov, (∃ j, ctraFromJson rf j = .ok o) ↔
      ‖o.state.yaw.value‖ = 1 ∧ (∀ i j, rf (o.covariance i j) = o.covariance i j) ∧
        o.semanticClass = .unknown := by
  refine ⟨fun o => ⟨?_, fun ⟨a, b, c⟩ => C65_readable_partial rf o a b c⟩,
    fun o => ⟨?_, fun ⟨a, b, c⟩ => C65_readable_ctra_partial rf o a b c⟩⟩
  · rintro ⟨j, hj⟩
    obtain ⟨-, ⟨_, -, -, -, -, ⟨_, -, hy⟩, -⟩, ⟨_, -, hc⟩, -, hk⟩ := ctrv_ok_iff.1 hj
    exact ⟨hy.1, rowMajor_float rf h2 h0 h1 hc, hk⟩
  · rintro ⟨j, hj⟩
    obtain ⟨-, ⟨_, -, -, -, -, ⟨_, -, hy⟩, -⟩, ⟨_, -, hc⟩, -, hk⟩ := ctra_ok_iff.1 hj
    exact ⟨hy.1, rowMajor_float rf h2 h0 h1 hc, hk⟩

/-- no document yields a pedestrian -/
example (h2 : ∀ x, rf (rf x) = rf x) (h0 : rf 0 = 0) (h1 : rf 1 = 1) (j : Json)
    (o : DynObj CtrvState CtrvCov) (h : ctrvFromJson rf j = .ok o) : o.semanticClass ≠ .pedestrian := by
  rw [(((C65_readable_iff rf h2 h0 h1).1 o).1 ⟨j, h⟩).2.2]
  decide

example (h : rf 1 = 1) : ∃ j, ctrvFromJson rf j = .ok (sampleCtrv rf) :=
  C65_readable_partial rf _ (Angle.norm_ofRad 4) (fun _ _ => by show rf (rf 1) = rf 1; rw [h, h]) rfl

end Mot.Props
