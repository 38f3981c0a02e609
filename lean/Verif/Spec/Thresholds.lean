import Verif.Model.TrackManager
/-!
# Vocabulary: two histories of which one is kinder to the tracks
-/

namespace Mot.Spec

variable {τ S C : Type}

/-- the same call, except that more tracks are associated or the removal threshold is set lower -/
inductive MoreSeen : Op τ S C → Op τ S C → Prop
  | same (op : Op τ S C) : MoreSeen op op
  | update {a a' : AssociationMap} (h : ∀ u ∈ a.keys, u ∈ a'.keys) : MoreSeen (.update a) (.update a')
  | removal {r r' : BitVec 64} (h : r'.toNat ≤ r.toNat) : MoreSeen (.setRemoval r) (.setRemoval r')

/-- the same call, except that the removal threshold is set lower or the promotion threshold higher -/
inductive Milder : Op τ S C → Op τ S C → Prop
  | same (op : Op τ S C) : Milder op op
  | removal {r r' : BitVec 64} (h : r'.toNat ≤ r.toNat) : Milder (.setRemoval r) (.setRemoval r')
  | promotion {p p' : BitVec 64} (h : p.toNat ≤ p'.toNat) : Milder (.setPromotion p) (.setPromotion p')

/-- the call adds a track with this UUID -/
def Adds [TrackOps τ S C] (u : Uuid) : Op τ S C → Prop
  | .add t => TrackOps.uuid t = u
  | _ => False

/-- the call sets the promotion threshold -/
def SetsPromotion : Op τ S C → Prop
  | .setPromotion _ => True
  | _ => False

end Mot.Spec
