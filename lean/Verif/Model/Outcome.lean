/-!
# Outcomes of C++ calls

A call returns normally, throws an exception, or runs into undefined behaviour.  The
three are kept apart everywhere in the model.
-/

namespace Mot

/-- The standard exception classes thrown by the library (or by the standard library
functions it calls). -/
inductive Exc
  /-- `std::logic_error` (track_management.hpp:100) -/
  | logicError
  /-- `std::runtime_error` (dynamic_object.hpp:183, clustering.hpp:143, json_parsing.hpp:199) -/
  | runtimeError
  /-- `std::out_of_range` (`.at` of standard containers, track_matching.hpp:181) -/
  | outOfRange
  /-- `nlohmann::json::exception` (missing key, wrong type) -/
  | jsonError
  deriving DecidableEq, Repr

/-- Reasons for undefined behaviour that the model distinguishes. -/
inductive Why
  /-- maximum of an empty matrix (`dlib::max`) -/
  | emptyMax
  /-- conversion of a NaN / out-of-range floating point number to `int` -/
  | badCast
  /-- read outside an array -/
  | oobRead
  /-- read of an element that was never written -/
  | uninitRead
  /-- Eigen operands of different sizes -/
  | sizeMismatch
  /-- signed integer arithmetic whose result does not fit in the type -/
  | intOverflow
  /-- a loop that has not ended after the number of steps the model allows (the theorems say
  when this cannot happen) -/
  | endless
  /-- not undefined behaviour in C++: a division by zero, the inverse of a singular matrix
  or the square root of a negative number, where floating point yields infinities or NaN
  and the exact-arithmetic model has no value -/
  | notReal
  deriving DecidableEq, Repr

/-- Result of a call. -/
inductive Outcome (α : Type u)
  | ok (a : α)
  | throw (e : Exc)
  | ub (w : Why)
  deriving DecidableEq, Repr

namespace Outcome

/-- Sequencing: exceptions and undefined behaviour stop the computation. -/
@[inline] def bind {α : Type u} {β : Type v} (x : Outcome α) (f : α → Outcome β) : Outcome β :=
  match x with
  | ok a => f a
  | throw e => throw e
  | ub w => ub w

instance : Monad Outcome where
  pure := ok
  bind := bind

@[simp] theorem pure_def {α : Type u} (a : α) : (pure a : Outcome α) = ok a := rfl
@[simp] theorem ok_bind {α β : Type u} (a : α) (f : α → Outcome β) : (ok a >>= f) = f a := rfl
@[simp] theorem throw_bind {α β : Type u} (e : Exc) (f : α → Outcome β) :
    ((throw e : Outcome α) >>= f) = throw e := rfl
@[simp] theorem ub_bind {α β : Type u} (w : Why) (f : α → Outcome β) :
    ((ub w : Outcome α) >>= f) = ub w := rfl

/-- The call returned normally. -/
def IsOk {α : Type u} : Outcome α → Prop
  | ok _ => True
  | _ => False

/-- The call ran into undefined behaviour. -/
def IsUb {α : Type u} : Outcome α → Prop
  | ub _ => True
  | _ => False

@[simp] theorem isOk_ok {α : Type u} (a : α) : (ok a).IsOk := trivial
@[simp] theorem not_isOk_throw {α : Type u} (e : Exc) : ¬ (throw e : Outcome α).IsOk := id
@[simp] theorem not_isOk_ub {α : Type u} (w : Why) : ¬ (ub w : Outcome α).IsOk := id
@[simp] theorem isUb_ub {α : Type u} (w : Why) : (ub w : Outcome α).IsUb := trivial
@[simp] theorem not_isUb_ok {α : Type u} (a : α) : ¬ (ok a).IsUb := id
@[simp] theorem not_isUb_throw {α : Type u} (e : Exc) : ¬ (throw e : Outcome α).IsUb := id

theorem isOk_iff {α : Type u} {x : Outcome α} : x.IsOk ↔ ∃ a, x = ok a := by
  cases x <;> simp [IsOk]

/-- Map the elements of a list, stopping at the first failure (a C++ loop that pushes
the result of a call that may throw). -/
def mapM' {α : Type u} {β : Type v} (f : α → Outcome β) : List α → Outcome (List β)
  | [] => ok []
  | a :: l => match f a with
    | ok b => match mapM' f l with
      | ok bs => ok (b :: bs)
      | throw e => throw e
      | ub w => ub w
    | throw e => throw e
    | ub w => ub w

end Outcome

/-- A stateful call: the state after the call is available also when it throws, so
that partial updates are visible. -/
abbrev Act (σ : Type) (α : Type) := σ → σ × Outcome α

namespace Act

/-- Sequencing of stateful calls. -/
@[inline] def andThen {σ α β : Type} (x : Act σ α) (f : α → Act σ β) : Act σ β := fun s =>
  match x s with
  | (s', .ok a) => f a s'
  | (s', .throw e) => (s', .throw e)
  | (s', .ub w) => (s', .ub w)

/-- `for (auto & x : xs) body(x);` where the body acts on the state and may throw. -/
def forEach {σ α : Type} (body : α → Act σ Unit) : List α → Act σ Unit
  | [], s => (s, .ok ())
  | a :: l, s => match body a s with
    | (s', .ok _) => forEach body l s'
    | (s', .throw e) => (s', .throw e)
    | (s', .ub w) => (s', .ub w)

end Act

end Mot
