import Verif.Model.Clustering
import Verif.Spec.Clustering
import Verif.Proofs.Angle
import Verif.Proofs.Maps
import Mathlib.Algebra.BigOperators.Group.List.Basic
/-!
# Lemmas about clusters
-/

set_option linter.unusedSectionVars false

namespace Mot

open Real

/-- detections are stored under their identity -/
class ClusterIds {P : outParam Type} (δ : Type) [ClusterableOf P δ] [Identified δ] : Prop where
  uuid_eq (d : δ) : ClusterableOf.uuid d = Identified.id d

/-- the detection types treat their fields as the specification reads them -/
class ClusterLaws (δ : Type) [Clusterable δ] [Readable δ] : Prop extends ClusterIds δ where
  addTo_eq (p : Point) (d : δ) : ClusterableOf.addTo p d =
    ⟨p.x + (Readable.reading d).x, p.y + (Readable.reading d).y, p.v + (Readable.reading d).v,
      Angle.ofRad (p.yaw.getAngle + (Readable.reading d).yaw),
      p.yawRate + (Readable.reading d).yawRate⟩
  subFrom_eq (p : Point) (d : δ) : ClusterableOf.subFrom p d =
    ⟨p.x - (Readable.reading d).x, p.y - (Readable.reading d).y, p.v - (Readable.reading d).v,
      Angle.ofRad (p.yaw.getAngle - (Readable.reading d).yaw),
      p.yawRate - (Readable.reading d).yawRate⟩
  sqDist_eq (p : Point) (d : δ) : Clusterable.sqDist p d =
    (p.x - (Readable.reading d).x) ^ 2 + (p.y - (Readable.reading d).y) ^ 2
      + (p.v - (Readable.reading d).v) ^ 2 + (p.yaw.getAngle - (Readable.reading d).yaw) ^ 2
      + (p.yawRate - (Readable.reading d).yawRate) ^ 2
  makePoint_x (d : δ) : (ClusterableOf.makePoint d).x = (Readable.reading d).x
  makePoint_y (d : δ) : (ClusterableOf.makePoint d).y = (Readable.reading d).y
  makePoint_v (d : δ) : (ClusterableOf.makePoint d).v = (Readable.reading d).v
  makePoint_yaw (d : δ) : (ClusterableOf.makePoint d).yaw.getAngle = (Readable.reading d).yaw
  makePoint_yawRate (d : δ) : (ClusterableOf.makePoint d).yawRate = (Readable.reading d).yawRate

instance clusterLawsCtrv {C : Type} : ClusterLaws (DynObj CtrvState C) where
  uuid_eq _ := rfl
  addTo_eq _ _ := rfl
  subFrom_eq _ _ := rfl
  sqDist_eq _ _ := rfl
  makePoint_x _ := rfl
  makePoint_y _ := rfl
  makePoint_v _ := rfl
  makePoint_yaw _ := rfl
  makePoint_yawRate _ := rfl

instance clusterLawsCtra {C : Type} : ClusterLaws (DynObj CtraState C) where
  uuid_eq _ := rfl
  addTo_eq _ _ := rfl
  subFrom_eq _ _ := rfl
  sqDist_eq _ _ := rfl
  makePoint_x _ := rfl
  makePoint_y _ := rfl
  makePoint_v _ := rfl
  makePoint_yaw _ := rfl
  makePoint_yawRate _ := rfl

instance clusterLawsVariant {C C' : Type} : ClusterLaws (Obj2 CtrvState C CtraState C') where
  uuid_eq d := by cases d <;> rfl
  addTo_eq _ d := by cases d <;> rfl
  subFrom_eq _ d := by cases d <;> rfl
  sqDist_eq _ d := by cases d <;> rfl
  makePoint_x d := by cases d <;> rfl
  makePoint_y d := by cases d <;> rfl
  makePoint_v d := by cases d <;> rfl
  makePoint_yaw d := by cases d <;> rfl
  makePoint_yawRate d := by cases d <;> rfl

namespace UMap
variable {K V : Type} [DecidableEq K]

theorem emplace_of_some {m : UMap K V} {k : K} {v : V} (h : m.find? k ≠ none) :
    m.emplace k v = m := by simp [emplace, h]

theorem emplace_entries {m : UMap K V} {k : K} {v : V} (h : m.find? k = none) :
    (m.emplace k v).entries = (k, v) :: m.entries := by
  simp [emplace, set, h]

end UMap

namespace ClusterOf
variable {P δ : Type} [PointOps P] [ClusterableOf P δ] [Identified δ] [ClusterIds δ]

/-- the cluster after one call (exceptions leave whatever state the call left) -/
def exec : ClusterOp δ → ClusterOf P δ → ClusterOf P δ
  | .add d, c => c.add d
  | .remove u, c => (ClusterOf.remove u c).1
  | .clear, c => c.clear
  | .centroid, c => c

/-- the cluster after a history of calls (most recent first) -/
def run : List (ClusterOp δ) → ClusterOf P δ
  | [] => ClusterOf.new
  | op :: h => exec op (run h)

/-- members of the cluster are exactly `ms` -/
def Holds (c : ClusterOf P δ) (ms : List δ) : Prop :=
  c.detections.entries.Perm (ms.map fun d => (Identified.id d, d))

theorem Holds.new : (new : ClusterOf P δ).Holds [] := List.Perm.nil

theorem Holds.nodup {c : ClusterOf P δ} {ms : List δ} (h : c.Holds ms) :
    (ms.map Identified.id).Nodup := by
  have := c.detections.nodup
  rw [(h.map (·.1)).nodup_iff, List.map_map] at this
  exact this

theorem Holds.find? {c : ClusterOf P δ} {ms : List δ} (h : c.Holds ms) (u : Uuid) (d : δ) :
    c.detections.find? u = some d ↔ d ∈ ms ∧ Identified.id d = u := by
  rw [UMap.find?_eq_some, h.mem_iff, List.mem_map]
  constructor
  · rintro ⟨e, he, h⟩
    cases h
    exact ⟨he, rfl⟩
  · rintro ⟨h, rfl⟩
    exact ⟨d, h, rfl⟩

theorem Holds.find?_none {c : ClusterOf P δ} {ms : List δ} (h : c.Holds ms) (u : Uuid) :
    c.detections.find? u = none ↔ ∀ d ∈ ms, Identified.id d ≠ u := by
  rw [Option.eq_none_iff_forall_ne_some]
  constructor
  · intro hn d hd he
    exact hn d ((h.find? u d).2 ⟨hd, he⟩)
  · intro hn d hd
    obtain ⟨h1, h2⟩ := (h.find? u d).1 hd
    exact hn d h1 h2

theorem Holds.add {c : ClusterOf P δ} {ms : List δ} (h : c.Holds ms) {d : δ}
    (hd : ∀ e ∈ ms, Identified.id e ≠ Identified.id d) : (c.add d).Holds (d :: ms) := by
  unfold Holds ClusterOf.add
  simp only
  rw [ClusterIds.uuid_eq, UMap.emplace_entries ((h.find?_none _).2 hd), List.map_cons]
  exact h.cons _

theorem filter_perm {ms : List δ} (hn : (ms.map Identified.id).Nodup) {d : δ} (hd : d ∈ ms) :
    (d :: ms.filter (fun e => Identified.id e ≠ Identified.id d)).Perm ms := by
  induction ms with
  | nil => cases hd
  | cons a l ih =>
    rw [List.map_cons, List.nodup_cons] at hn
    rcases List.mem_cons.1 hd with rfl | hd
    · rw [List.filter_cons_of_neg (by simp), List.filter_eq_self.2]
      intro e he
      have : Identified.id e ≠ Identified.id d := fun h => hn.1 (h ▸ List.mem_map_of_mem he)
      simp [this]
    · have hne : Identified.id a ≠ Identified.id d := fun h => hn.1 (h ▸ List.mem_map_of_mem hd)
      rw [List.filter_cons_of_pos (by simp [hne])]
      exact (List.Perm.swap _ _ _).trans ((ih hn.2 hd).cons a)

theorem remove_some {c : ClusterOf P δ} {ms : List δ} (h : c.Holds ms) {d : δ} (hd : d ∈ ms) :
    ClusterOf.remove (Identified.id d) c =
      (⟨ClusterableOf.subFrom c.stateSum d, c.detections.erase (Identified.id d)⟩, .ok ()) := by
  unfold ClusterOf.remove
  rw [(h.find? _ d).2 ⟨hd, rfl⟩]

theorem remove_none {c : ClusterOf P δ} {u : Uuid} (h : c.detections.find? u = none) :
    ClusterOf.remove u c = (c, .throw .outOfRange) := by
  unfold ClusterOf.remove
  rw [h]

theorem Holds.remove {c : ClusterOf P δ} {ms : List δ} (h : c.Holds ms) (u : Uuid) :
    (ClusterOf.remove u c).1.Holds (ms.filter fun d => Identified.id d ≠ u) := by
  rcases hf : c.detections.find? u with _ | d
  · rw [remove_none hf, List.filter_eq_self.2]
    · exact h
    · intro e he
      simpa using (h.find?_none u).1 hf e he
  · obtain ⟨hd, rfl⟩ := (h.find? u d).1 hf
    rw [remove_some h hd]
    have := (List.Perm.filter (fun e : Uuid × δ => e.1 ≠ Identified.id d) h)
    rw [List.filter_map] at this
    exact this

/-- the members after any history without repeated UUIDs, `clear` allowed anywhere -/
theorem run_holds (h : List (ClusterOp δ)) (hp : ∀ d pre suf, h = pre ++ .add d :: suf →
    ∀ e ∈ members suf, Identified.id e ≠ Identified.id d) : (run h).Holds (members h) := by
  induction h with
  | nil => exact Holds.new
  | cons op h ih =>
    have ih := ih (fun d pre suf he => hp d (op :: pre) suf (by rw [he]; rfl))
    cases op with
    | add d => exact ih.add (hp d [] h rfl)
    | remove u => exact ih.remove u
    | clear => exact List.Perm.nil
    | centroid => exact ih

/-- the members after any history -/
theorem run_kept (h : List (ClusterOp δ)) : (run h).Holds (kept h) := by
  induction h with
  | nil => exact Holds.new
  | cons op h h1 =>
    cases op with
    | add d =>
      by_cases hd : (kept h).any (fun e => Identified.id e = Identified.id d) = true
      · rw [show kept (.add d :: h) = kept h from if_pos hd]
        show ((run h).detections.emplace (ClusterableOf.uuid d) d).entries.Perm _
        rw [UMap.emplace_of_some]
        · exact h1
        · rw [ClusterIds.uuid_eq, Ne, h1.find?_none]
          intro hn
          obtain ⟨e, he, hee⟩ := List.any_eq_true.1 hd
          exact hn e he (of_decide_eq_true hee)
      · rw [show kept (.add d :: h) = d :: kept h from if_neg hd]
        exact h1.add fun e he hee => hd (List.any_eq_true.2 ⟨e, he, decide_eq_true hee⟩)
    | remove u => exact h1.remove u
    | clear => exact List.Perm.nil
    | centroid => exact h1

theorem Holds.length {c : ClusterOf P δ} {ms : List δ} (h : c.Holds ms) :
    c.detections.entries.length = ms.length := by
  rw [h.length_eq, List.length_map]

theorem centroid_of_holds {c : ClusterOf P δ} {ms : List δ} (h : c.Holds ms) :
    c.centroid = if ms = [] then .throw .runtimeError else .ok (PointOps.divideBy c.stateSum ms.length) := by
  unfold centroid
  rw [h.length]
  have hl := h.length
  by_cases hm : ms = []
  · rw [if_pos hm]
    subst hm
    rw [if_pos]
    rw [List.isEmpty_iff]
    exact List.length_eq_zero_iff.1 hl
  · rw [if_neg hm, if_neg]
    rw [List.isEmpty_iff]
    intro he
    rw [he] at hl
    exact hm (List.length_eq_zero_iff.1 hl.symm)

end ClusterOf

section Scan
variable {P δ : Type} [PointOps P] [ClusterableOf P δ]

/-- the loop keeps what is not within the threshold and adds the rest in order -/
theorem scan_eq (within : P → δ → Bool) (o : P) (c : ClusterOf P δ) (l : List δ) :
    scan within o c l =
      ((l.filter (within o)).foldl ClusterOf.add c, l.filter (fun d => !within o d)) := by
  induction l generalizing c with
  | nil => rfl
  | cons d l ih =>
    simp only [scan]
    split
    · rename_i h
      rw [ih, List.filter_cons_of_pos h, List.filter_cons_of_neg (by simp [h])]
      rfl
    · rename_i h
      rw [ih, List.filter_cons_of_neg h, List.filter_cons_of_pos (by simp [h])]

theorem clusterDetections_nil (within : P → δ → Bool) :
    clusterDetections within ([] : List δ) = [] := by
  rw [clusterDetections]; rfl

theorem clusterDetections_concat (within : P → δ → Bool) (l : List δ) (o : δ) :
    clusterDetections within (l ++ [o]) =
      (l.filter (within (ClusterableOf.makePoint o))).foldl ClusterOf.add (ClusterOf.new.add o) ::
        clusterDetections within (l.filter (fun d => !within (ClusterableOf.makePoint o) d)) := by
  rw [clusterDetections]
  split
  · rename_i h; simp at h
  · rename_i o' h
    rw [List.getLast?_concat] at h
    cases h
    simp only [List.dropLast_concat, scan_eq]

/-- induction along the outer loop -/
theorem cluster_induction {motive : List δ → Prop} (within : P → δ → Bool) (h0 : motive [])
    (h1 : ∀ l o, motive (l.filter (fun d => !within (ClusterableOf.makePoint o) d)) → motive (l ++ [o]))
    (l : List δ) : motive l := by
  induction hn : l.length using Nat.strong_induction_on generalizing l with
  | _ n ih =>
    rcases List.eq_nil_or_concat l with rfl | ⟨l', o, rfl⟩
    · exact h0
    · rw [List.concat_eq_append] at hn ⊢
      refine h1 _ _ (ih _ ?_ _ rfl)
      rw [List.length_append] at hn
      have := List.length_filter_le (fun d => !within (ClusterableOf.makePoint o) d) l'
      simp only [List.length_singleton] at hn
      omega

variable [Identified δ] [ClusterIds δ]

theorem ClusterOf.foldl_members {c : ClusterOf P δ} {ms : List δ} (h : c.Holds ms)
    (l : List δ) (hn : (l.map Identified.id).Nodup)
    (hd : ∀ d ∈ l, ∀ e ∈ ms, Identified.id e ≠ Identified.id d) :
    (l.foldl ClusterOf.add c).Holds (l.reverse ++ ms) := by
  induction l generalizing c ms with
  | nil => exact h
  | cons d l ih =>
    rw [List.map_cons, List.nodup_cons] at hn
    have hd' : ∀ e ∈ ms, Identified.id e ≠ Identified.id d := hd d List.mem_cons_self
    have := ih (h.add hd') hn.2 (fun e he f hf => ?_)
    · simpa using this
    · rcases List.mem_cons.1 hf with rfl | hf
      · exact fun h => hn.1 (h ▸ List.mem_map_of_mem he)
      · exact hd e (List.mem_cons_of_mem _ he) f hf

/-- the cluster formed around the origin `o` -/
theorem ClusterOf.first_members (within : P → δ → Bool) (l : List δ) (o : δ)
    (hn : ((l ++ [o]).map Identified.id).Nodup) :
    ((l.filter (within (ClusterableOf.makePoint o))).foldl ClusterOf.add (ClusterOf.new.add o)).Holds
      ((l.filter (within (ClusterableOf.makePoint o))).reverse ++ [o]) := by
  rw [List.map_append, List.nodup_append] at hn
  refine foldl_members (Holds.new.add (by simp)) _ (hn.1.sublist (List.filter_sublist.map _)) ?_
  intro d hd e he
  rw [List.mem_singleton.1 he]
  exact (hn.2.2 _ (List.mem_map_of_mem (List.mem_filter.1 hd).1) _ (by simp)).symm

theorem nodup_rest {within : P → δ → Bool} {l : List δ} {o : δ}
    (hn : ((l ++ [o]).map Identified.id).Nodup) :
    ((l.filter (fun d => !within (ClusterableOf.makePoint o) d)).map Identified.id).Nodup := by
  rw [List.map_append, List.nodup_append] at hn
  exact hn.1.sublist (List.filter_sublist.map _)

end Scan

namespace ClusterOf
variable {δ : Type} [Clusterable δ] [Readable δ] [ClusterLaws δ]

/-- the running sum is the sum over `ms` -/
def SumOf (c : Cluster δ) (ms : List δ) : Prop :=
  c.stateSum.x = (ms.map fun d => (Readable.reading d).x).sum ∧
  c.stateSum.y = (ms.map fun d => (Readable.reading d).y).sum ∧
  c.stateSum.v = (ms.map fun d => (Readable.reading d).v).sum ∧
  c.stateSum.yaw = Angle.ofRad (ms.map fun d => (Readable.reading d).yaw).sum ∧
  c.stateSum.yawRate = (ms.map fun d => (Readable.reading d).yawRate).sum

theorem SumOf.new : (new : Cluster δ).SumOf [] := by
  simp [SumOf, ClusterOf.new, PointOps.zero, Point.zero]

theorem SumOf.add {c : Cluster δ} {ms : List δ} (h : c.SumOf ms) (d : δ) :
    (c.add d).SumOf (d :: ms) := by
  obtain ⟨h1, h2, h3, h4, h5⟩ := h
  simp only [SumOf, ClusterOf.add, ClusterLaws.addTo_eq, List.map_cons, List.sum_cons]
  refine ⟨by rw [h1, add_comm], by rw [h2, add_comm], by rw [h3, add_comm], ?_,
    by rw [h5, add_comm]⟩
  rw [h4, Angle.ofRad_eq_iff, add_comm]
  exact (SameDir.refl _).add (Angle.sameDir_getAngle _)

theorem SumOf.perm {c : Cluster δ} {ms ms' : List δ} (h : c.SumOf ms) (hp : ms.Perm ms') :
    c.SumOf ms' := by
  unfold SumOf at *
  rw [← (hp.map _).sum_eq, ← (hp.map _).sum_eq, ← (hp.map _).sum_eq, ← (hp.map _).sum_eq,
    ← (hp.map _).sum_eq]
  exact h

theorem SumOf.sub {c : Cluster δ} {d : δ} {ms : List δ} (h : c.SumOf (d :: ms)) (m : UMap Uuid δ) :
    (⟨ClusterableOf.subFrom c.stateSum d, m⟩ : Cluster δ).SumOf ms := by
  obtain ⟨h1, h2, h3, h4, h5⟩ := h
  simp only [List.map_cons, List.sum_cons] at h1 h2 h3 h4 h5
  simp only [SumOf, ClusterLaws.subFrom_eq]
  refine ⟨by rw [h1]; ring, by rw [h2]; ring, by rw [h3]; ring, ?_, by rw [h5]; ring⟩
  rw [h4, Angle.ofRad_eq_iff]
  have := (Angle.sameDir_getAngle ((Readable.reading d).yaw +
    (ms.map fun d => (Readable.reading d).yaw).sum)).sub (SameDir.refl (Readable.reading d).yaw)
  rwa [add_sub_cancel_left] at this

theorem SumOf.remove {c : Cluster δ} {ms : List δ} (h : c.Holds ms) (hs : c.SumOf ms) (u : Uuid) :
    (ClusterOf.remove u c).1.SumOf (ms.filter fun d => Identified.id d ≠ u) := by
  rcases hf : c.detections.find? u with _ | d
  · rw [remove_none hf, List.filter_eq_self.2]
    · exact hs
    · intro e he
      simpa using (h.find?_none u).1 hf e he
  · obtain ⟨hd, rfl⟩ := (h.find? u d).1 hf
    rw [remove_some h hd]
    exact (hs.perm (filter_perm h.nodup hd).symm).sub _

/-- members and sum after a proper history -/
theorem run_inv (h : List (ClusterOp δ)) (hp : Proper h) :
    (run h).Holds (members h) ∧ (run h).SumOf (members h) := by
  induction h with
  | nil => exact ⟨Holds.new, SumOf.new⟩
  | cons op h ih =>
    cases op with
    | add d =>
      obtain ⟨h1, h2⟩ := ih hp.2
      exact ⟨h1.add hp.1, h2.add d⟩
    | remove u =>
      obtain ⟨h1, h2⟩ := ih hp
      exact ⟨h1.remove u, h2.remove h1 u⟩
    | clear =>
      obtain ⟨h1, h2⟩ := ih hp.2
      rw [hp.1] at h1 h2
      exact ⟨List.Perm.nil, h2⟩
    | centroid => exact ih hp

theorem SumOf.remove_append {c : Cluster δ} {ms gs : List δ} (h : c.Holds ms)
    (hs : c.SumOf (ms ++ gs)) (u : Uuid) :
    (ClusterOf.remove u c).1.SumOf ((ms.filter fun d => Identified.id d ≠ u) ++ gs) := by
  rcases hf : c.detections.find? u with _ | d
  · rw [remove_none hf, List.filter_eq_self.2]
    · exact hs
    · intro e he
      simpa using (h.find?_none u).1 hf e he
  · obtain ⟨hd, rfl⟩ := (h.find? u d).1 hf
    rw [remove_some h hd]
    exact (hs.perm ((filter_perm h.nodup hd).symm.append_right gs)).sub _

/-- members and sum after any history -/
theorem run_all (h : List (ClusterOp δ)) :
    (run h).Holds (kept h) ∧ (run h).SumOf (kept h ++ ghosts h) := by
  refine ⟨run_kept h, ?_⟩
  induction h with
  | nil => exact SumOf.new
  | cons op h h2 =>
    cases op with
    | add d =>
      by_cases hd : (kept h).any (fun e => Identified.id e = Identified.id d) = true
      · rw [show kept (.add d :: h) = kept h from if_pos hd,
          show ghosts (.add d :: h) = d :: ghosts h from if_pos hd]
        exact (h2.add d).perm (List.perm_middle.symm)
      · rw [show kept (.add d :: h) = d :: kept h from if_neg hd,
          show ghosts (.add d :: h) = ghosts h from if_neg hd]
        exact h2.add d
    | remove u => exact h2.remove_append (run_kept h) u
    | clear => exact h2
    | centroid => exact h2

theorem centroid_exact {c : Cluster δ} {ms : List δ} (h : c.Holds ms) :
    c.centroid = if ms = [] then .throw .runtimeError else .ok (c.stateSum.divide ms.length) :=
  centroid_of_holds h

theorem foldl_holds {c : Cluster δ} {ms : List δ} (h : c.Holds ms) (hs : c.SumOf ms)
    (l : List δ) (hn : (l.map Identified.id).Nodup)
    (hd : ∀ d ∈ l, ∀ e ∈ ms, Identified.id e ≠ Identified.id d) :
    (l.foldl ClusterOf.add c).Holds (l.reverse ++ ms) ∧
    (l.foldl ClusterOf.add c).SumOf (l.reverse ++ ms) := by
  refine ⟨foldl_members h l hn hd, ?_⟩
  clear hn hd h
  induction l generalizing c ms with
  | nil => exact hs
  | cons d l ih => simpa using ih (hs.add d)

/-- the cluster formed around the origin `o` -/
theorem first_holds (within : Point → δ → Bool) (l : List δ) (o : δ)
    (hn : ((l ++ [o]).map Identified.id).Nodup) :
    ((l.filter (within (ClusterableOf.makePoint o))).foldl ClusterOf.add (ClusterOf.new.add o)).Holds
      ((l.filter (within (ClusterableOf.makePoint o))).reverse ++ [o]) ∧
    ((l.filter (within (ClusterableOf.makePoint o))).foldl ClusterOf.add (ClusterOf.new.add o)).SumOf
      ((l.filter (within (ClusterableOf.makePoint o))).reverse ++ [o]) := by
  refine ⟨first_members within l o hn, ?_⟩
  rw [List.map_append, List.nodup_append] at hn
  refine (foldl_holds (Holds.new.add (by simp)) (SumOf.new.add o) _
    (hn.1.sublist (List.filter_sublist.map _)) ?_).2
  intro d hd e he
  rw [List.mem_singleton.1 he]
  exact (hn.2.2 _ (List.mem_map_of_mem (List.mem_filter.1 hd).1) _ (by simp)).symm

end ClusterOf

end Mot
