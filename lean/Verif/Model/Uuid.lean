import Mathlib.Data.List.Lex
import Mathlib.Data.Fintype.Order
/-!
# UUIDs (uuid.hpp)

`Uuid` wraps a `std::string`; all relational operators forward to the string.  A
`std::string` is modelled as the list of its bytes (values 0..255).
`std::string::compare` is `memcmp` on the common prefix followed by comparison of the
lengths ([string.compare], `char_traits<char>::lt` compares as `unsigned char`).
-/

namespace Mot

/-- uuid.hpp:32-47 -/
structure Uuid where
  /-- `uuid_`, uuid.hpp:46 -/
  value : List (Fin 256)
  deriving DecidableEq, Repr

namespace Uuid

/-- `traits_type::compare(a, b, n)`: first difference decides. -/
def memcmp : List (Fin 256) → List (Fin 256) → ℕ → Ordering
  | a :: as, b :: bs, n + 1 =>
    if a < b then .lt else if b < a then .gt else memcmp as bs n
  | _, _, _ => .eq

/-- `std::string::compare`: common prefix first, then the lengths. -/
def strCompare (a b : List (Fin 256)) : Ordering :=
  match memcmp a b (min a.length b.length) with
  | .lt => .lt
  | .gt => .gt
  | .eq => if a.length < b.length then .lt else if b.length < a.length then .gt else .eq

/-- `operator==`, uuid.hpp:54-57 (`std::string` equality: `compare == 0`) -/
def eq (a b : Uuid) : Bool := strCompare a.value b.value == .eq
/-- `operator!=`, uuid.hpp:59-62 -/
def ne (a b : Uuid) : Bool := !(strCompare a.value b.value == .eq)
/-- `operator<`, uuid.hpp:64-67 -/
def lt (a b : Uuid) : Bool := strCompare a.value b.value == .lt
/-- `operator<=`, uuid.hpp:69-72 -/
def le (a b : Uuid) : Bool := !(strCompare a.value b.value == .gt)
/-- `operator>`, uuid.hpp:74-77 -/
def gt (a b : Uuid) : Bool := strCompare a.value b.value == .gt
/-- `operator>=`, uuid.hpp:79-82 -/
def ge (a b : Uuid) : Bool := !(strCompare a.value b.value == .lt)

/-- `std::hash<Uuid>`, uuid.hpp:86-93: the hash of the string; the string hash is a
parameter. -/
def hash (strHash : List (Fin 256) → BitVec 64) (u : Uuid) : BitVec 64 := strHash u.value

theorem value_injective : Function.Injective Uuid.value := by
  rintro ⟨a⟩ ⟨b⟩ h; cases h; rfl

/-- The order used by `std::map<Uuid, …>` and `std::set<Uuid>`; `Props.C67` proves that
it is the one computed by `operator<`. -/
instance : LinearOrder Uuid := LinearOrder.lift' Uuid.value value_injective

end Uuid

end Mot
