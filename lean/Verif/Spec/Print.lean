import Verif.Model.Uuid
import Verif.Model.Matching
/-!
# Vocabulary for statements about printed associations
-/

namespace Mot.Spec

/-- newline and space -/
abbrev newline : Fin 256 := 10
@[inherit_doc newline] abbrev space : Fin 256 := 32

/-- no UUID contains a newline, no detection UUID contains a space -/
def PlainNames (a : AssociationMap) : Prop :=
  ∀ t ds, a.find? t = some ds → newline ∉ t.value ∧ ∀ d ∈ ds, newline ∉ d.value ∧ space ∉ d.value

/-- every track has exactly one detection and no UUID contains a newline -/
def SingleNames (a : AssociationMap) : Prop :=
  ∀ t ds, a.find? t = some ds → newline ∉ t.value ∧ ∃ d, ds = [d] ∧ newline ∉ d.value

/-- names, each followed by a space -/
def spacedNames (ds : List Uuid) : List (Fin 256) := ds.flatMap fun d => d.value ++ [space]

/-- no UUID contains a newline -/
def OneLineNames (a : AssociationMap) : Prop :=
  ∀ t ds, a.find? t = some ds → newline ∉ t.value ∧ ∀ d ∈ ds, newline ∉ d.value

end Mot.Spec
