import Verif.Model.Print
import Verif.Spec.Print
import Verif.Props.Matching
/-!
# Printed associations (C93)
-/

namespace Mot.Props

open Mot Spec

private theorem upto_inj {x : Fin 256} {u v r r' : Text} (hu : x ∉ u) (hv : x ∉ v)
    (h : u ++ x :: r = v ++ x :: r') : u = v ∧ r = r' := by
  induction u generalizing v with
  | nil =>
    cases v with
    | nil => simpa using h
    | cons b v =>
      simp only [List.nil_append, List.cons_append, List.cons.injEq] at h
      exact absurd (by simp [h.1]) hv
  | cons a u ih =>
    cases v with
    | nil =>
      simp only [List.nil_append, List.cons_append, List.cons.injEq] at h
      exact absurd (by simp [h.1]) hu
    | cons b v =>
      simp only [List.cons_append, List.cons.injEq] at h
      obtain ⟨h1, h2⟩ := ih (fun hc => hu (by simp [hc])) (fun hc => hv (by simp [hc])) h.2
      exact ⟨by rw [h.1, h1], h2⟩

private theorem detections_newline {ds : List Uuid} (h : ∀ d ∈ ds, newline ∉ d.value) :
    newline ∉ printDetections ds := by
  unfold printDetections
  simp only [List.mem_flatMap, List.mem_append, not_exists, not_and, not_or]
  intro d hd
  exact ⟨h d hd, by decide⟩

private theorem detections_inj {ds ds' : List Uuid} (h : ∀ d ∈ ds, space ∉ d.value)
    (h' : ∀ d ∈ ds', space ∉ d.value) (he : printDetections ds = printDetections ds') :
    ds = ds' := by
  have hsp : ascii " " = [space] := by decide
  unfold printDetections at he
  induction ds generalizing ds' with
  | nil =>
    cases ds' with
    | nil => rfl
    | cons d ds' => simp [hsp] at he
  | cons d ds ih =>
    cases ds' with
    | nil => simp [hsp] at he
    | cons d' ds' =>
      simp only [List.flatMap_cons, hsp, List.append_assoc, List.singleton_append] at he
      obtain ⟨h1, h2⟩ := upto_inj (h d (by simp)) (h' d' (by simp)) he
      have := ih (ds' := ds') (fun x hx => h x (by simp [hx])) (fun x hx => h' x (by simp [hx]))
        (by rw [hsp]; exact h2)
      rw [Uuid.value_injective h1, this]

/-- one entry is a prefix code -/
private theorem entry_inj {e e' : Uuid × List Uuid} {r r' : Text}
    (h1 : newline ∉ e.1.value) (h1' : newline ∉ e'.1.value)
    (h2 : newline ∉ printDetections e.2) (h2' : newline ∉ printDetections e'.2)
    (h : printEntry e ++ r = printEntry e' ++ r') :
    e.1 = e'.1 ∧ printDetections e.2 = printDetections e'.2 ∧ r = r' := by
  unfold printEntry Uuid.print endl at h
  simp only [List.append_assoc, List.append_cancel_left_eq, List.singleton_append] at h
  obtain ⟨h3, h4⟩ := upto_inj h1 h1' h
  replace h4 := List.append_cancel_left h4
  obtain ⟨h5, h6⟩ := upto_inj h2 h2' h4
  exact ⟨Uuid.value_injective h3, h5, by simpa using h6⟩

private theorem map_inj {l l' : List (Uuid × List Uuid)}
    (h : ∀ e ∈ l, newline ∉ e.1.value ∧ newline ∉ printDetections e.2)
    (h' : ∀ e ∈ l', newline ∉ e.1.value ∧ newline ∉ printDetections e.2)
    (hd : ∀ e ∈ l, ∀ e' ∈ l', printDetections e.2 = printDetections e'.2 → e.2 = e'.2)
    (he : l.flatMap printEntry = l'.flatMap printEntry) : l = l' := by
  have hne : ∀ e, printEntry e ≠ [] := by
    intro e hc
    have hl := congrArg List.length hc
    simp [printEntry, endl] at hl
  induction l generalizing l' with
  | nil =>
    cases l' with
    | nil => rfl
    | cons e l' =>
      simp only [List.flatMap_nil, List.flatMap_cons] at he
      exact absurd (List.append_eq_nil_iff.1 he.symm).1 (hne e)
  | cons e l ih =>
    cases l' with
    | nil =>
      simp only [List.flatMap_nil, List.flatMap_cons] at he
      exact absurd (List.append_eq_nil_iff.1 he).1 (hne e)
    | cons e' l' =>
      simp only [List.flatMap_cons] at he
      obtain ⟨h1, h2⟩ := h e (by simp)
      obtain ⟨h1', h2'⟩ := h' e' (by simp)
      obtain ⟨h3, h4, h5⟩ := entry_inj h1 h1' h2 h2' he
      rw [Prod.ext h3 (hd e (by simp) e' (by simp) h4),
        ih (fun x hx => h x (by simp [hx])) (fun x hx => h' x (by simp [hx]))
          (fun x hx y hy => hd x (by simp [hx]) y (by simp [hy])) h5]

private theorem smap_ext {a b : AssociationMap} (h : a.entries = b.entries) : a = b := by
  cases a; cases b; cases h; rfl

/-- C93, what holds: if no UUID contains a newline and no detection UUID a space, the printed
text determines the association map. -/
theorem C93_plain_partial (a b : AssociationMap) (ha : PlainNames a) (hb : PlainNames b)
    (h : printAssociationMap a = printAssociationMap b) : a = b := by
  have key : ∀ c : AssociationMap, PlainNames c → ∀ e ∈ c.entries,
      newline ∉ e.1.value ∧ ∀ d ∈ e.2, newline ∉ d.value ∧ space ∉ d.value :=
    fun c hc e he => hc e.1 e.2 (SMap.find?_eq_some.2 he)
  refine smap_ext (map_inj (fun e he => ⟨(key a ha e he).1, ?_⟩)
    (fun e he => ⟨(key b hb e he).1, ?_⟩) (fun e he e' he' => ?_) h)
  · exact detections_newline fun d hd => ((key a ha e he).2 d hd).1
  · exact detections_newline fun d hd => ((key b hb e he).2 d hd).1
  · exact detections_inj (fun d hd => ((key a ha e he).2 d hd).2)
      (fun d hd => ((key b hb e' he').2 d hd).2)

private theorem single_inj {d d' : Uuid} (h : printDetections [d] = printDetections [d']) :
    d = d' := by
  unfold printDetections Uuid.print at h
  simp only [List.flatMap_cons, List.flatMap_nil, List.append_nil] at h
  exact Uuid.value_injective (List.append_cancel_right h)

/-- C93: for maps that assign one detection to each track, as the associator's do, spaces in
UUIDs do no harm. -/
theorem C93_single_partial (a b : AssociationMap) (ha : SingleNames a) (hb : SingleNames b)
    (h : printAssociationMap a = printAssociationMap b) : a = b := by
  have key : ∀ c : AssociationMap, SingleNames c → ∀ e ∈ c.entries,
      newline ∉ e.1.value ∧ ∃ d, e.2 = [d] ∧ newline ∉ d.value :=
    fun c hc e he => hc e.1 e.2 (SMap.find?_eq_some.2 he)
  have key2 : ∀ c : AssociationMap, SingleNames c → ∀ e ∈ c.entries,
      newline ∉ e.1.value ∧ newline ∉ printDetections e.2 := by
    intro c hc e he
    obtain ⟨h1, d, h2, h3⟩ := key c hc e he
    refine ⟨h1, detections_newline ?_⟩
    rw [h2]
    simpa using h3
  refine smap_ext (map_inj (key2 a ha) (key2 b hb) (fun e he e' he' hp => ?_) h)
  obtain ⟨-, d, h2, -⟩ := key a ha e he
  obtain ⟨-, d', h2', -⟩ := key b hb e' he'
  rw [h2, h2'] at hp ⊢
  rw [single_inj hp]

/-- C93 for the associator: the printed associations of two score maps agree only if the
associations do, provided no UUID of either contains a newline. -/
theorem C93_gnn_partial {solve : Solver} (hs : IsPermSolver solve) (scores scores' : ScoreMap)
    (hbig : scores.entries.length < 2 ^ 64) (hbig' : scores'.entries.length < 2 ^ 64)
    (hn : ∀ t d, Scored scores t d → newline ∉ t.value ∧ newline ∉ d.value)
    (hn' : ∀ t d, Scored scores' t d → newline ∉ t.value ∧ newline ∉ d.value)
    {a b : AssociationMap} (ha : gnnAssociator solve scores = .ok a)
    (hb : gnnAssociator solve scores' = .ok b)
    (h : printAssociationMap a = printAssociationMap b) : a = b := by
  have key : ∀ (sc : ScoreMap) (c : AssociationMap), sc.entries.length < 2 ^ 64 →
      (∀ t d, Scored sc t d → newline ∉ t.value ∧ newline ∉ d.value) →
      gnnAssociator solve sc = .ok c → SingleNames c := by
    intro sc c hl hsc hc t ds hf
    obtain ⟨mx, co, σ, -, -, -, h4⟩ := gnn_ok hs hl hc
    obtain ⟨p, -, h5, h6⟩ := (h4 t ds).1 hf
    obtain ⟨d, hd⟩ := scoredTrack_nth (scores := sc) p.1
    obtain ⟨t', ht'⟩ := scoredDetection_nth (scores := sc) p.2
    rw [← h5]
    exact ⟨(hsc _ _ hd).1, _, h6, (hsc _ _ ht').2⟩
  exact C93_single_partial a b (key _ _ hbig hn ha) (key _ _ hbig' hn' hb) h

private theorem entries_print_inj {l l' : List (Uuid × List Uuid)}
    (h : ∀ e ∈ l, newline ∉ e.1.value ∧ newline ∉ printDetections e.2)
    (h' : ∀ e ∈ l', newline ∉ e.1.value ∧ newline ∉ printDetections e.2)
    (he : l.flatMap printEntry = l'.flatMap printEntry) :
    l.map (fun e => (e.1, printDetections e.2)) = l'.map (fun e => (e.1, printDetections e.2)) := by
  have hne : ∀ e, printEntry e ≠ [] := by
    intro e hc
    have hl := congrArg List.length hc
    simp [printEntry, endl] at hl
  induction l generalizing l' with
  | nil =>
    cases l' with
    | nil => rfl
    | cons e l' =>
      simp only [List.flatMap_nil, List.flatMap_cons] at he
      exact absurd (List.append_eq_nil_iff.1 he.symm).1 (hne e)
  | cons e l ih =>
    cases l' with
    | nil =>
      simp only [List.flatMap_nil, List.flatMap_cons] at he
      exact absurd (List.append_eq_nil_iff.1 he).1 (hne e)
    | cons e' l' =>
      simp only [List.flatMap_cons] at he
      obtain ⟨h1, h2⟩ := h e (by simp)
      obtain ⟨h1', h2'⟩ := h' e' (by simp)
      obtain ⟨h3, h4, h5⟩ := entry_inj h1 h1' h2 h2' he
      rw [List.map_cons, List.map_cons, h3, h4,
        ih (fun x hx => h x (by simp [hx])) (fun x hx => h' x (by simp [hx])) h5]

/-- the map with the printed detections -/
private def printedMap (a : AssociationMap) : SMap Uuid Text :=
  ⟨a.entries.map fun e => (e.1, printDetections e.2), by
    rw [List.pairwise_map]
    exact a.sorted⟩

private theorem printedMap_find (a : AssociationMap) (t : Uuid) :
    (printedMap a).find? t = (a.find? t).map printDetections := by
  rw [Option.ext_iff]
  intro v
  rw [SMap.find?_eq_some, Option.map_eq_some_iff]
  unfold printedMap
  rw [List.mem_map]
  constructor
  · rintro ⟨e, he, h⟩
    obtain ⟨rfl, rfl⟩ := Prod.mk.inj h
    exact ⟨e.2, SMap.find?_eq_some.2 he, rfl⟩
  · rintro ⟨ds, h1, rfl⟩
    exact ⟨_, SMap.find?_eq_some.1 h1, rfl⟩

/-- C93, exactly what the report determines if no UUID contains a newline: for each track the
sequence of the names of its detections, each followed by a space. -/
theorem C93_iff (a b : AssociationMap) (ha : OneLineNames a) (hb : OneLineNames b) :
    printAssociationMap a = printAssociationMap b ↔
      ∀ t, (a.find? t).map spacedNames = (b.find? t).map spacedNames := by
  have hsp : ∀ ds, spacedNames ds = printDetections ds := fun ds => by
    unfold spacedNames printDetections Uuid.print
    rfl
  have hs : spacedNames = printDetections := funext hsp
  rw [hs]
  have key : ∀ c : AssociationMap, OneLineNames c → ∀ e ∈ c.entries,
      newline ∉ e.1.value ∧ newline ∉ printDetections e.2 := fun c hc e he =>
    ⟨(hc _ _ (SMap.find?_eq_some.2 he)).1, detections_newline (hc _ _ (SMap.find?_eq_some.2 he)).2⟩
  constructor
  · intro h t
    have he := entries_print_inj (key a ha) (key b hb) h
    rw [← printedMap_find, ← printedMap_find]
    unfold SMap.find? printedMap
    simp only [he]
  · intro h
    have he : printedMap a = printedMap b := SMap.ext_find? fun t => by
      rw [printedMap_find, printedMap_find, h t]
    have he' := congrArg SMap.entries he
    unfold printedMap at he'
    simp only at he'
    have hp : ∀ l : List (Uuid × List Uuid), l.flatMap printEntry =
        (l.map fun e => (e.1, printDetections e.2)).flatMap fun e => ascii "Track UUID: " ++ e.1.print ++ endl ++
          ascii "Assigned Detection UUIDs: " ++ e.2 ++ endl ++ endl := by
      intro l
      rw [List.flatMap_map]
      rfl
    unfold printAssociationMap
    rw [hp, hp, he']

/-- track "t" with the detection "a b" -/
def spacedMap : AssociationMap := SMap.empty.set ⟨ascii "t"⟩ [⟨ascii "a b"⟩]
/-- track "t" with the detections "a" and "b" -/
def splitMap : AssociationMap := SMap.empty.set ⟨ascii "t"⟩ [⟨ascii "a"⟩, ⟨ascii "b"⟩]

/-- C93 is false in general: one detection "a b" prints like two detections "a" and "b". -/
theorem C93_space_ambiguous :
    printAssociationMap spacedMap = printAssociationMap splitMap ∧ spacedMap ≠ splitMap := by
  refine ⟨by decide +kernel, fun h => ?_⟩
  have : spacedMap.entries = splitMap.entries := by rw [h]
  revert this
  decide +kernel

/-- one track "a", whose name contains a complete record -/
def forgedMap : AssociationMap := SMap.empty.set
  ⟨ascii "a" ++ endl ++ ascii "Assigned Detection UUIDs: d " ++ endl ++ endl ++
    ascii "Track UUID: b"⟩ [⟨ascii "e"⟩]
/-- two tracks -/
def honestMap : AssociationMap :=
  (SMap.empty.set ⟨ascii "a"⟩ [⟨ascii "d"⟩]).set ⟨ascii "b"⟩ [⟨ascii "e"⟩]

/-- C93 is false in general: newlines in a UUID forge records, even if every track has one
detection. -/
theorem C93_newline_ambiguous :
    printAssociationMap forgedMap = printAssociationMap honestMap ∧
      forgedMap.entries.length = 1 ∧ honestMap.entries.length = 2 := by
  decide +kernel

/-- the exact text for one track and two detections -/
theorem C93_text : printAssociationMap splitMap =
    ascii "Track UUID: t\nAssigned Detection UUIDs: a b \n\n" := by decide +kernel

/-- the hypotheses of `C93_plain_partial` are met by a map with a track with two detections -/
example : PlainNames splitMap := by
  intro t ds h
  have := SMap.find?_eq_some.1 h
  have he : splitMap.entries = [(⟨ascii "t"⟩, [⟨ascii "a"⟩, ⟨ascii "b"⟩])] := by decide +kernel
  rw [he] at this
  simp only [List.mem_singleton, Prod.mk.injEq] at this
  obtain ⟨rfl, rfl⟩ := this
  decide +kernel

/-- … those of `C93_iff` by a map with a name that contains a space … -/
example : OneLineNames spacedMap := by
  intro t ds h
  have := SMap.find?_eq_some.1 h
  have he : spacedMap.entries = [(⟨ascii "t"⟩, [⟨ascii "a b"⟩])] := by decide +kernel
  rw [he] at this
  simp only [List.mem_singleton, Prod.mk.injEq] at this
  obtain ⟨rfl, rfl⟩ := this
  decide +kernel

/-- … and those of `C93_single_partial` by `honestMap` and `spacedMap` -/
example : SingleNames spacedMap := by
  intro t ds h
  have := SMap.find?_eq_some.1 h
  have he : spacedMap.entries = [(⟨ascii "t"⟩, [⟨ascii "a b"⟩])] := by decide +kernel
  rw [he] at this
  simp only [List.mem_singleton, Prod.mk.injEq] at this
  obtain ⟨rfl, rfl⟩ := this
  exact ⟨by decide +kernel, _, rfl, by decide +kernel⟩

end Mot.Props
