import Verif.Model.Matching
/-!
# Printing associations (track_matching.hpp, uuid.hpp)

Text written to `std::cout` is a list of bytes.  `std::endl` writes a newline (and flushes,
which is not modelled).  Failure of the stream is not modelled.
-/

namespace Mot

/-- text -/
abbrev Text := List (Fin 256)

/-- the bytes of an ASCII string literal -/
def ascii (s : String) : Text := s.toList.map fun c => Fin.ofNat 256 c.toNat

/-- `std::endl` -/
def endl : Text := [10]

/-- `operator<<(std::ostream &, Uuid)`, uuid.hpp:49-52 -/
def Uuid.print (u : Uuid) : Text := u.value

/-- loop over the detections, track_matching.hpp:275-277 -/
def printDetections (ds : List Uuid) : Text := ds.flatMap fun d => d.print ++ ascii " "

/-- body of the loop over the tracks, track_matching.hpp:267-278 -/
def printEntry (e : Uuid × List Uuid) : Text :=
  ascii "Track UUID: " ++ e.1.print ++ endl ++ ascii "Assigned Detection UUIDs: " ++
    printDetections e.2 ++ endl ++ endl

/-- `print_association_map`, track_matching.hpp:264-280 -/
def printAssociationMap (a : AssociationMap) : Text := a.entries.flatMap printEntry

end Mot
