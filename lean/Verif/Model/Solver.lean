import Verif.Model.Matching
import Mathlib.Logic.Function.Basic

/-!
# The assignment solver

`gnn_associator` (track_matching.hpp:234-257) calls `dlib::max_cost_assignment` on a
`dlib::matrix<int>`.  The library is not part of the repository (`find_package(dlib)`,
dependencies.cmake:16), so everywhere else the solver is a parameter with a contract
(`IsOptimalSolver`, `IsPermSolver`).  This file models the procedure itself, the Kuhn-Munkres
algorithm as dlib implements it (`dlib/optimization/max_cost_assignment.h`), statement by
statement.  *It is written from knowledge of dlib 19, not from text in the repository*; only the
theorems of `Verif.Props.Solver` depend on it.

The additions and subtractions of the procedure are in the element type `int`.  They go through
`IntArith.chk`, so that the same text runs in exact arithmetic, in `int` with overflow as
undefined behaviour, and in `int` with wraparound.
-/

namespace Mot

/-- the arithmetic of the element type: what becomes of the exact result of an addition or a
subtraction, and `std::numeric_limits<type>::max()` -/
structure IntArith where
  /-- the outcome of an addition or subtraction with this exact result -/
  chk : ℤ → Outcome ℤ
  /-- the largest value of the type -/
  top : ℤ

/-- `int` as the C++ standard has it: overflow is undefined -/
def int32 : IntArith :=
  ⟨fun z => if -2 ^ 31 ≤ z ∧ z ≤ 2 ^ 31 - 1 then .ok z else .ub .intOverflow, 2 ^ 31 - 1⟩

/-- `int` with wraparound (what `-fwrapv` prescribes and unoptimised code does) -/
def wrap32 : IntArith := ⟨fun z => .ok (BitVec.ofInt 32 z).toInt, 2 ^ 31 - 1⟩

/-- exact integers with a largest value used as "infinity" -/
def exactInt (top : ℤ) : IntArith := ⟨.ok, top⟩

/-- `for (a : l) s = f(s, a)` -/
def foldOutcome {σ α : Type} (f : σ → α → Outcome σ) : List α → σ → Outcome σ
  | [], s => .ok s
  | a :: l, s => (f s a).bind (foldOutcome f l)

namespace Km

/-- The local variables of `max_cost_assignment`.  The index `-1` is `none`. -/
structure State (n : ℕ) where
  /-- labels of the rows -/
  lx : Fin n → ℤ
  /-- labels of the columns -/
  ly : Fin n → ℤ
  /-- the column a row is matched to -/
  xy : Fin n → Option (Fin n)
  /-- the row a column is matched to -/
  yx : Fin n → Option (Fin n)
  /-- rows of the current search tree -/
  S : Fin n → Bool
  /-- columns of the current search tree -/
  T : Fin n → Bool
  /-- smallest slack of a column -/
  slack : Fin n → ℤ
  /-- the row where it is attained -/
  slackx : Fin n → Fin n
  /-- the row before a row in the search tree -/
  aug : Fin n → Option (Fin n)
  /-- rows still to scan -/
  q : List (Fin n)
  /-- `x_start`, `y_start` once `found_augmenting_path` is set -/
  found : Option (Fin n × Fin n)

variable {n : ℕ} (A : IntArith) (c : Fin n → Fin n → ℤ)

/-- one pass of the loop of `compute_slack`:
`if (lx[x] + ly[y] - cost(x,y) < slack[y]) { slack[y] = …; slackx[y] = x; }` -/
def slackStep (x : Fin n) (s : State n) (y : Fin n) : Outcome (State n) :=
  (A.chk (s.lx x + s.ly y)).bind fun a =>
  (A.chk (a - c x y)).bind fun v =>
  if v < s.slack y then
    .ok { s with slack := Function.update s.slack y v, slackx := Function.update s.slackx y x }
  else .ok s

/-- `compute_slack(x, slack, slackx, cost, lx, ly)` -/
def computeSlack (x : Fin n) (s : State n) : Outcome (State n) :=
  foldOutcome (slackStep A c x) (List.finRange n) s

/-- a matched column `y` with partner `x'` enters the tree below row `p`:
`q.push_back(yx[y]); aug_path[yx[y]] = p; S[yx[y]] = true; compute_slack(yx[y], …)`, after
`T[y] = true` -/
def enter (y x' p : Fin n) (s : State n) : Outcome (State n) :=
  computeSlack A c x'
    { s with T := Function.update s.T y true, q := s.q ++ [x'],
             aug := Function.update s.aug x' (some p), S := Function.update s.S x' true }

/-- one pass of the loop over the columns for a row `x` taken from the queue; nothing happens
after the `break` -/
def scanStep (x : Fin n) (s : State n) (y : Fin n) : Outcome (State n) :=
  if s.found.isSome then .ok s else
  (A.chk (s.lx x + s.ly y)).bind fun v =>
  if c x y = v ∧ s.T y = false then
    match s.yx y with
    | none => .ok { s with found := some (x, y) }
    | some x' => enter A c y x' x s
  else .ok s

/-- `while (q.size() > 0 && !found_augmenting_path)` -/
def drain : ℕ → State n → Outcome (State n)
  | k, s =>
    if s.found.isSome then .ok s else
    match s.q with
    | [] => .ok s
    | x :: q =>
      match k with
      | 0 => .ub .endless
      | k + 1 => (foldOutcome (scanStep A c x) (List.finRange n) { s with q := q }).bind (drain k)

/-- the smallest slack of a column outside the tree:
`delta = max(); for i: if (!T[i]) delta = std::min(delta, slack[i]);` -/
def delta (s : State n) : ℤ :=
  (List.finRange n).foldl (fun d i => if s.T i then d else min d (s.slack i)) A.top

/-- one pass of the loop that improves the labels -/
def relabelStep (d : ℤ) (s : State n) (i : Fin n) : Outcome (State n) :=
  (if s.S i then
    (A.chk (s.lx i - d)).bind fun v => .ok { s with lx := Function.update s.lx i v }
  else .ok s).bind fun s =>
  if s.T i then
    (A.chk (s.ly i + d)).bind fun v => .ok { s with ly := Function.update s.ly i v }
  else
    (A.chk (s.slack i - d)).bind fun v => .ok { s with slack := Function.update s.slack i v }

/-- one pass of the loop over the columns after the labels have been improved -/
def pickStep (s : State n) (y : Fin n) : Outcome (State n) :=
  if s.found.isSome then .ok s else
  if s.T y = false ∧ s.slack y = 0 then
    match s.yx y with
    | none => .ok { s with found := some (s.slackx y, y) }
    | some x' =>
      if s.S x' then .ok { s with T := Function.update s.T y true }
      else enter A c y x' (s.slackx y) s
  else .ok s

/-- `while (!found_augmenting_path)` -/
def search (fuel : ℕ) : ℕ → State n → Outcome (State n)
  | 0, _ => .ub .endless
  | k + 1, s =>
    (drain A c fuel s).bind fun s =>
    if s.found.isSome then .ok s else
    (foldOutcome (relabelStep A (delta A s)) (List.finRange n) s).bind fun s =>
    (foldOutcome (pickStep A c) (List.finRange n) { s with q := [] }).bind fun s =>
    if s.found.isSome then .ok s else search fuel k s

/-- flipping the edges of the augmenting path:
`for (cx = x_start, cy = y_start; cx != -1; cx = aug_path[cx], cy = ty)
{ ty = xy[cx]; yx[cy] = cx; xy[cx] = cy; }` -/
def flip : ℕ → Option (Fin n) → Option (Fin n) → State n → Outcome (State n)
  | _, none, _, s => .ok s
  | _, some _, none, _ => .ub .oobRead
  | 0, some _, some _, _ => .ub .endless
  | k + 1, some x, some y, s =>
    flip k (s.aug x) (s.xy x)
      { s with yx := Function.update s.yx y (some x), xy := Function.update s.xy x (some y) }

/-- the first part of a round: everything cleared, the first unmatched row queued -/
def start (s : State n) : Outcome (State n) :=
  let s : State n := { s with
    S := fun _ => false, T := fun _ => false, slack := fun _ => A.top, aug := fun _ => none,
    q := [], found := none }
  match (List.finRange n).find? fun x => (s.xy x).isNone with
  | none => .ok s
  | some x => computeSlack A c x { s with q := [x], S := Function.update s.S x true }

/-- one round: `for (match_size = 0; match_size < cost.nc(); ++match_size)` -/
def round (fuel : ℕ) (s : State n) : Outcome (State n) :=
  (start A c s).bind fun s =>
  (search A c fuel fuel s).bind fun s =>
  match s.found with
  | none => .ok s
  | some (x, y) => flip fuel (some x) (some y) s

/-- `max(rowm(cost, x))` -/
def rowMax (x : Fin n) : ℤ := (List.finRange n).foldl (fun m y => max m (c x y)) (c x ⟨0, x.pos⟩)

/-- nothing matched, row labels the row maxima, column labels 0 -/
def init : State n where
  lx := rowMax c
  ly := fun _ => 0
  xy := fun _ => none
  yx := fun _ => none
  S := fun _ => false
  T := fun _ => false
  slack := fun _ => 0
  slackx := fun y => ⟨0, y.pos⟩
  aug := fun _ => none
  q := []
  found := none

/-- `n` rounds -/
def rounds (fuel : ℕ) : ℕ → State n → Outcome (State n)
  | 0, s => .ok s
  | k + 1, s => (round A c fuel s).bind (rounds fuel k)

end Km

/-- `dlib::max_cost_assignment(cost)`; `fuel` bounds the number of passes of its `while` loops -/
def kmAssignment (A : IntArith) (fuel n : ℕ) (c : Fin n → Fin n → ℤ) : Outcome (List ℤ) :=
  (Km.rounds A c fuel n (Km.init c)).bind fun s =>
  .ok (List.ofFn fun x => match s.xy x with
    | some y => (y.1 : ℤ)
    | none => -1)

/-- `gnn_associator`, track_matching.hpp:234-257, with that procedure as the solver -/
def gnnAssociatorKm (A : IntArith) (fuel : ℕ) (scores : ScoreMap) : Outcome AssociationMap :=
  let sm := scoreMatrix scores .empty .empty
  let ts := sm.2.1
  let ds := sm.2.2
  (costMatrix sm.1).bind fun cm =>
  (readAll (makeSquareMatrix cm intLowest)).bind fun sq =>
  (if h : sq.nc = sq.nr then kmAssignment A fuel sq.nr (fun i j => sq.get i (Fin.cast h.symm j))
   else .ub .sizeMismatch).bind fun results =>
  if results.length < ts.size then .ub .oobRead
  else associationMap (results.take ts.size) ts ds

end Mot
