# Formal model of multiple_object_tracking

Subject: the C++ library in `/repo` (headers in
`include/multiple_object_tracking/`, sources in `src/`).  The code is read as text
only; the Lean model in `lean/Verif` is written by hand, function by function, with
file and line citations on every definition.

## 1. Layout

* `Verif/Model/*`  – executable-style definitions that follow the C++ code.
* `Verif/Spec/*`   – small independent specifications (abstract tables, "best
  assignment", "mean", equations of motion …) that do not mention the model.
* `Verif/Proofs/*` – helper lemmas.
* `Verif/Props/*`  – the property theorems (named `Cnn_…`) with, next to each, an
  `example` that exhibits a concrete non-trivial case meeting the hypotheses.
* `Verif/Checks/*` – the repository's own unit tests, run on the model (section 7).

## 2. Modelling conventions

* **Outcomes.** `Outcome α = ok a | throw e | ub w`.  Exceptions and undefined
  behaviour are different constructors; nothing is silently totalised.  Stateful
  functions return the state *and* the outcome, so partial updates are visible.
* **UUIDs** are byte strings compared like `std::string::compare`.
* **std::map / std::set** are strictly sorted association lists; iteration order is
  list order.  **std::unordered_map** is an association list with unique keys; the
  order is arbitrary and theorem C14 shows that it cannot be observed.
* **Counters and thresholds** (`size_t`) are 64-bit vectors with wrap-around.
* **Motion-model numerics** (angles, states, matrices) are over ℝ.  Properties about
  them say "in exact real arithmetic"; float rounding is *not* covered there.
* **Association costs** are modelled in bit-exact IEEE arithmetic: binary32/binary64
  round-to-nearest-even on rationals with overflow to infinity and NaN, because
  their rounding decides the result.  The **Euclidean score** is modelled both over ℝ and in
  IEEE arithmetic (C85), with a bound on the difference; so are rounding to decimal places
  (C87), `get_angle` (C88), `get_next_state` with and without noise (C89, C90),
  the weights and weighted sums of the sigma points (C91, C92), the whole prediction (C94) and
  the Mahalanobis score (C97).
* **External code** enters as a parameter with an explicit contract: dlib's
  `max_cost_assignment` (returns an optimal permutation of a square matrix; C116 proves this
  contract of a model of the procedure), Eigen's
  `llt` (L Lᵀ = P), nlohmann-json value access, std::hash.

## 3. Per-property plan

| id | modelled | proof |
|----|----------|-------|
| C01 | manager with three maps, all public calls | invariant (same keys, no duplicates) by induction over histories |
| C02 | same | refinement to `Uuid → Option Entry`, induction over histories |
| C03 | same, 64-bit counters | invariant 1 ≤ count ≤ history length + 1 |
| C04 | update_track_lists | direct from per-entry refinement |
| C05 | add + k updates | induction on k |
| C06 | all calls | per-call case analysis on the abstract table |
| C07 | runs of updates | induction on the run |
| C08 | add_tentative_track | direct |
| C09, C10 | threshold setters | direct |
| C11 | update_track_lists | direct from C04 |
| C12, C13 | update_track on variant objects with partial effects | direct; C13 negation by witness |
| C14 | arbitrary permutation of the maps between calls | simulation up to `List.Perm` |
| C15 | update_track_lists | congruence |
| C16, C17 | scoring loops, variant visitors | induction on lists |
| C18 | erase-while-iterating loop, stateful predicate | induction |
| C19, C20 | score matrix → cost matrix → padding → solver → map | finite combinatorics on permutations |
| C21 | IEEE costs | error bound on rounding + optimality |
| C22 | same | negation by 3×3 witness; max-cardinality theorem via collapse of costs; exact condition for a gated pair |
| C23 | UB outcomes | negation by two witnesses; positive theorem |
| C24 | IEEE costs | monotonicity of rounding; the rounding function is proved to be round-to-nearest-even against an independent definition |
| C25 | HasAssociation | direct |
| C26–C28 | helper functions | induction / case split |
| C29 | triple loop | list algebra |
| C30 | visitor | direct |
| C31 | weight | det(A+B) > det A, det B for positive definite matrices |
| C32, C34 | CI formulas | Mathlib matrix inverse / PosDef |
| C33 | CI formulas | joint error covariance PSD, convexity inequality |
| C35 | yaw handling | negation by witness; same-side theorem; exact condition for equal covariances |
| C36 | propagate/predict | direct |
| C37 | parameter passing | negation by witness; exact characterisation |
| C38–C40, C42 | weights, sigma points, transform | finite sums |
| C41 | predict with dt = 0 | negation by witness; exact condition for the heading, the other variables unconditionally; partial |
| C43–C50 | next-state functions | trigonometric identities, `HasDerivAt` |
| C51–C53 | complex angle | `Complex.arg`, `Real.Angle` |
| C54 | state arithmetic | from C52 |
| C55–C57 | distances | Euclidean norm, PosDef |
| C58, C59 | clustering loops | induction on remaining detections |
| C60–C62 | Cluster object | invariant over operation histories; negations by witness |
| C63–C65 | JSON value tree and parsing functions | direct; induction on arrays |
| C66 | rounding | `round` |
| C67 | byte strings | list lexicographic order |
| C71 | state comparison with tolerance | negation by witness 1, 1+2ε, 1+4ε; drift along k comparisons by induction; states with the same yaw linked by small equal steps |
| C72 | clustering | from C59; negation by three detections; exact condition (transitivity) |
| C68 | score, gate, associate, fuse | counting argument; exact condition for optimal solvers |
| C69, C73 | whole cycle on the manager | refinement to the table of C02, composed with C16–C30 |
| C74 | accessors of dynamic_object.hpp | case analysis against a record of the five members |
| C75 | process noise, augmented states | entry by entry, from C54, C66, C71 |
| C76 | everything up to sequences of periods, and clustering | each step commutes with a shift; cycle and period for any homomorphism of objects |
| C77 | motion, scores, fusion, prediction | conjugation by a rotation or by the mirror (a diagonal matrix, so Cholesky factors and sigma points are mirrored too); negations by witness; exact conditions for the Euclidean score |
| C78 | same | conjugation by a diagonal matrix, uniqueness of the Cholesky factor; negation by witness; exact condition for the Euclidean score |
| C79 | score, associate, fuse, the cycle | ordered maps forget insertion order; from the refinement of C02 and C69 |
| C80 | histories of manager calls | the table of C02 acts entry by entry |
| C81 | histories of manager calls, runs of cycles | reflected walk: count = least window sum, by induction on the last update |
| C82, C83 | CI formulas, Mahalanobis score | variational characterisation of the inverse: antitone and convex in the Loewner order |
| C84 | unscented prediction | components that are affine at all sigma points are predicted exactly; the cut only touches component 3 |
| C85 | `euclidean_distance` in IEEE-754 arithmetic (`Model/FloatPose.lean`) | correct rounding of every operation, also of the square root (`Proofs/FloatSqrt.lean`); error bound by the standard model and the triangle inequality; monotonicity from monotone rounding |
| C86 | scoring with computed Euclidean scores, then the associator | C16, C23 and C85 combined |
| C87 | `round_to_decimal_place` in IEEE-754 arithmetic (`Model/FloatRound.lean`); `std::pow(10, d)` taken as the nearest `double` | error bounds for the three roundings; for idempotence in `float` a gap argument on representable numbers (`Proofs/FloatRound.lean`); negation in `double` by a witness |
| C88 | `get_angle` in IEEE-754 arithmetic (`Model/FloatAngle.lean`); the value of `std::arg` is an input | monotone, correct rounding; bounds on π from Mathlib |
| C89, C90 | `get_next_state` in IEEE-754 arithmetic (`Model/FloatMotion.lean`); `std::sin`, `std::cos`, `std::arg` are parameters, for the accuracy statements assumed accurate (`Spec/FloatMotion.lean`) | running error analysis (`Proofs/FloatMotion.lean`, `Proofs/FloatCtra.lean`); absorption by a gap argument on representable numbers; breakdown by exact evaluation |
| C91 | `generate_lambda`, `generate_weights`, the scale of the sigma points and the weighted sums in IEEE-754 arithmetic (`Model/FloatUt.lean`); the order of summation is left open | running error analysis; absorption by the gap between `float`s; a sum with a non-finite term is not finite |
| C92 | the same; sums as an inductive relation `SumsTo` that allows every order and grouping | induction on the way a sum is taken, errors counted in roundings (`Proofs/FloatSums.lean`); symmetry refuted by evaluation |
| C93 | `printAssociationMap` as a list of bytes (`Model/Print.lean`) | records are a prefix code: the first newline ends the name; counterexamples by evaluation; partial because UUIDs are arbitrary strings |
| C94 | the whole of `UnscentedTransform::operator()` in IEEE-754 arithmetic (`Model/FloatPredict.lean`): sigma points, motion model, rotation of headings, weighted sums, conversions between `float` and `double`; the Cholesky factor and the mathematical library are parameters | results of rounded operations are representable; error analysis of symmetric point sets on top of C92; breakdown from C91 |
| C95 | as C94; the specification is the weighted mean and covariance over real numbers (`Spec/FloatPredict.lean`) of the exact motion model | errors of the motion model (C89, C90), of rounding to `float`, of angle arithmetic and rotation of headings (C91) and of the weighted sums (C92) added up |
| C96 | unscented prediction of the heading, all sigma points | each pair of sigma points contributes twice the centre heading, minus or plus 2π if one of them is beyond the cut (`Spec.crossings` counts the pairs); the mean adds these up |
| C97 | `mahalanobis_distance` in IEEE-754 arithmetic (`Model/FloatMahalanobis.lean`) with Eigen's formula for the inverse of a 3×3 matrix; the order of summation is left open | errors counted in roundings relative to sums of absolute values (`Proofs/FloatInverse.lean`); signs for diagonal covariances; special values case by case; a nearly singular matrix evaluated in all orders |
| C98 | fusing.hpp in IEEE-754 arithmetic (`Model/FloatFusing.lean`); Eigen's `inverse` and `determinant` are parameters, assumed only to treat diagonal matrices entry by entry; order of sums and grouping of `w * A * x` left open | special values by spreading through sums; determinants as product trees (bounds, monotonicity, relative errors in `Proofs/FloatCi.lean`); the exact result for diagonal matrices is proved equal to the real model's |
| C99 | clustering.hpp in double arithmetic (`Model/FloatClustering.lean`, `Cluster` and `cluster_detections` of `Model/Clustering.lean` with points of doubles); `std::pow(., 2)` and the library behind `Angle` are parameters with stated accuracy | error of the sum of five squares; correspondence of two clusterings whose comparisons agree; error of the running sum by induction on histories; headings modulo 2π |
| C100 | the pipeline of docs/multiple_object_tracking_overview.md (`period` in `Model/Pipeline.lean`) as a composition of the modelled functions, for every pair of object types, fusion function and propagator | `period_rel`: the effect of a period on the abstract table of tracks; induction on sequences of periods for the times |
| C101 | the pipeline of C100 over the floating-point models of prediction (C94), scores (C85, C97) and fusing (C98); the heading is left out of (a), since `Angle` enters only through the library functions | NaN through every operation of the two models, then C23 and C100 |
| C102 | the pipeline of C100; `label` maps UUIDs to objects, and the specification is a tracker for a single object (`Spec/Identity.lean`) that knows no scores, gates, solvers or maps. The condition needs at least one pair that is not gated out in each period, since an empty score map is undefined behaviour (C23) | gated case: the scored pairs are one-to-one and C22; ungated case: a cost gap from C82 and exchange of totals; periods by C100 and the abstract manager; (d) from C85; (e) by counting (C20) and an explicit optimal solver |
| C103 | `propagate_to_time` with time stamps and durations as IEEE doubles (`Model/FloatTime.lean`); the propagator is a relation, so that (a)-(c) hold for every propagator; a propagator that records its durations makes them observable. Instants are exact rationals, stored by the specification of nearest-even rounding (`Spec/FloatTime.lean`) | differences of doubles are multiples of the smaller spacing, so they are exact if small enough (Sterbenz) and never underflow; (d) C89 and a Lipschitz bound of the exact motion; (e) the first sigma point is the state itself, and non-numbers survive sums and products |
| C104 | the comparison of the units library on IEEE doubles (`unitsEqF`), comparison of complex numbers by parts, states of both models and augmented states (`Model/FloatEq.lean`). The way an `Angle` stores its parts is a parameter. The specification speaks of the difference and the nearest-even rounding of the sum (`Spec/FloatEq.lean`) | small and near differences are exact (Sterbenz), scaling by 2^-52 is exact above 2^-970, below it the second test decides; nearest-even is unique; links by induction over exponent and significand, through 0 |
| C105 | text as a list of bytes; numbers as by `printf("%g")` (`FP.text`), lines, states, covariance matrices in the default format of Eigen, objects, containers (`Model/PrintNumber.lean`). The texts of units are a parameter. The specification reads numerals back and defines rounding to six digits without reference to the algorithm (`Spec/PrintNumber.lean`) | value of the numeral by cases on its notation; rounding is unique; numerals contain neither space nor newline, so lines and padded columns are prefix codes; an arbitrary UUID is delimited by counting newlines from the end |
| C106 | the functions of C29–C34, applied to a sequence of detections (`FusedRun`, `VectorRun` in `Spec/Converge.lean`) | the difference of the inverse covariances is multiplied by the weight each time; the determinants bound the weights away from 1; continuity of the inverse. Means: the error, multiplied by the inverse covariance, is multiplied by the weight; a component uncorrelated with the rest is averaged by itself, with a coefficient that tends to one half; headings: a contraction disturbed by 2 (3.14159265359 − π) whenever the average is negative |
| C107 | the functions of C29–C34 | det(A + B) / det A ≥ 1 + xᵀBx / xᵀAx (trace and eigenvalues), hence the weighted information is at least half of either; inverses reverse the order. Tight: P = diag(1/e, e, 1, …), R = 1 |
| C108 | the functions of C29–C34 | the difference of the two sides is a weighted sum of squared distances; induction over detections |
| C109 | the functions of C29–C34 | completing the square; for the last part families of 2×2 blocks with correlation tending to 1 and the weight computed by symmetry |
| C110 | C100 (periods) with C42 (prediction) and C107 (fusing) | induction over periods; a fused track is at most twice as uncertain as its detection whatever its prediction |
| C111 | angle, state, noise and augmented-state operators in `double` arithmetic (`Model/FloatState.lean`, `FloatMotion.lean`, `FloatPredict.lean`), vectors with `float` entries | sums of doubles are multiples of the smallest one, hence no underflow error; headings by the error bounds of C89/C99 |
| C112 | prediction, fusion, scores, the period and sequences of periods, clustering | each step commutes with a change of clock, the period for any homomorphism of objects and clocks; units by conjugation with a diagonal matrix and uniqueness of the Cholesky factor; negations by witness |
| C113 | prediction with the unscented transform | the predicted position is a weighted mean over the sigma points; Cauchy-Schwarz for the weights, displacement of each point by C50, mean square of the speed by the Cholesky factor; negation by witness |
| C114 | prediction with the unscented transform, twice | composition of C84; positions: both predictions of a witness computed, including the covariance and Cholesky factor in between |
| C115 | prediction with the unscented transform, inverses in Mahalanobis distance and fusion | witnesses where all predicted points agree in one component; for diagonal covariances differences of opposite predicted points span the space |
| C116 | `max_cost_assignment` statement by statement, `while` loops with a bound on the passes, arithmetic as a parameter | invariants of the labels, the matching, the search tree and the slacks; flipping by induction over the tree; weak duality |
| C117 | `gnn_associator` with that procedure in `int`, overflow undefined | C116 for T ≤ D; for T > D the first call of `compute_slack` fails |
| C118 | the same with wraparound | witness for the failure; C116 for T ≤ D |
| C119 | the manager under rounds of one update and other calls; the periods of C100 | weights 1, 1, 2, 4, … on blocks of `D` tracks: the weighted sum of the counts does not grow once there are `2 D` tracks; the worst case for `D = 1` by halving the counts in turn |
| C120 | the association function and the Euclidean score in `float`, as for C21 and C85 | the totals of two choices differ from their measured totals by at most `e` per pair, then C21; the triangle inequality in the Euclidean space of Mathlib for the positions; a two by two score map whose best choice changes shows that the factor two is needed |
| C121 | `Eigen::LLT` (unblocked, lower) over real numbers (`Model/Llt.lean`), written from knowledge of the library | loop invariant: the finished columns satisfy the equations of the factor and are unique, the others are untouched; existence of the factor from Mathlib (LDL); consequences for predictions by the argument of C84 with the covariance that belongs to the factor |
| C122 | the same procedure on `float`s with every operation rounded, sums in any order, no fused operations (`Model/FloatLlt.lean`) | induction over the columns: the finished entries reproduce the covariance up to 2^-20 of the scales; were the next pivot too small, the last row of the Gram matrix would be almost dependent on the earlier ones and the covariance would fail the margin on a vector of the left kernel (`Proofs/LltMargin.lean`) |
| C123 | prediction in IEEE arithmetic (C94) with the factor of C122; the mathematical library answers NaN to NaN and infinities (`NanMath`) | the entry of the factor stays NaN, or infinite on the diagonal, whether or not the decomposition gives up; so a sigma point has a NaN, or two have opposite infinities with equal weights, and any order of summation gives NaN; then as C101 |
| C124 | two managers from `Manager.new` with corresponding histories (`Milder`, `MoreSeen`) | an order between tables of C02 preserved by every call; counterexamples by running the tables |
| C125 | `IsLltF` (C122), `spreadF`, `wiF`, `sigmaPointsF`, `IsTransformF` with the factor tied to the covariance | C122_accurate gives the factor; rounding of the offsets; C95 for the points; C101 bounds for sums applied to the columns of speed, turn rate and acceleration |
| C126 | `CtrvState.next`, `CtraState.next`, `predict` with `unscentedTransform` | both motions solve the equation of motion (C45, C47) with the yaw rate the code uses; mean value inequality for their difference in the complex plane; the unscented mean without the centre point is an average with the covariance times (n+Lambda)/n, Cauchy-Schwarz; sharpness by straight and turning objects |
| C127 | `predict` with `unscentedTransform` on CTRV and CTRA objects | the variances are the weighted sum of squares of the deviations from `get_next_state` plus (beta - alpha^2) times the squared shift of the mean; Minkowski for the weighted sum and the sensitivities of C126 |
| C128 | `period` (all stages) with IEEE scores and poses | the exact failure condition of the associator (C23) on the gated scores, restated for pairs of objects; fusion fails exactly on pairs of different kinds (C29); Euclidean scores of bounded poses are finite (C85) |
| C129 | `IsTransformF` with `IsLltF`, CTRV and CTRA; `period` | offsets of the sigma points from C125, sizes of the points from C95, errors of the motion models from C89 and C90 with the displacement bounds of C50, then the error bounds of mean and covariance from C95 applied to the computed rows themselves; the period by C128 |
| C130 | `predict` with `unscentedTransform`, CTRV and CTRA | the predicted covariance in these variables is the image under the linear step of C84, so directions are pulled back; in position the mean and variance of x are computed for uncorrelated covariances: sigma points whose turn rates complete a full circle end where they would without speed; strict concavity of the sine for the heading; the distance bound adds C126 for the truth and for the prediction |
| C131 | Prediction (Model/Ukf), Euclidean score and gate (Model/Scoring), association (Model/Matching). Spec/Gate states the bounds and what it means that a track follows an object. | `C131_ctrv`, `C131_ctra`: the position from C130, the heading from C130 and the fact that neither heading wraps; `C131_association`: triangle inequality and C102.; `C131_high_ctrv`, `C131_high_ctra`: headings above the cut, by `C84_heading_high_*`; `C131_period`: `C131_apart` gives the hypothesis of `C102_period`; `C131_tight`, `C131_tight_ctra`: a track with nearly all its uncertainty in x, by C41 |
| C132 | `nextNoisy` for CTRV and CTRA in Model/FloatMotion, with the assumptions about the C library of C89 and C90; part (a) widens the ranges of `C90_noise_*` | `C132_ctrv`, `C132_ctra`, `C132_exact_ctrv`, `C132_exact_ctra`: errors of the halved noise and the squared time step, then as for the distance travelled in C89; `C132_absorbed`: rounding to nearest; `C132_not_finite`: finite sums and products have finite operands |
| C133 | the Mahalanobis scores of C57, scoring and pruning of C18, prediction of C84 and C130; `Covers` and `IsStatDistance` as specifications; exact reals | `C133_kept_ctrv`, `C133_kept_ctra`: the score is the least number of standard deviations (C57), then the triangle inequality; `C133_across_zero`, `C133_unsafe` (and `_ctra`): counterexamples, the latter from C130; `C133_gate` (and `_ctra`): C18; `C133_safe_ctrv`, `C133_safe_ctra`: Cauchy-Schwarz and C131 |
| C134 | `associateStep` with `mahalanobisScore`, `predict2`; `SureWithin` in Spec/StatGate, `Follows` and `poseGap` of C131; scores exact up to a rounding `rd` | `C134_apart`: by Cauchy-Schwarz the score is between the distance over √L and over √l (C57), so the gate leaves exactly the right pairs; `C134_association`, `C134_predicted`, `C134_period`: C102 and C131; `C134_wrong`: C102 applied with the wrong labels |
| C70 | the matrix the solver is asked about | negation for T > D; direct for T ≤ D |

## 4. Trusted base

**Proof checking.** The Lean 4.33.0 kernel and Mathlib's definitions.  Every property
theorem depends at most on `propext`, `Classical.choice` and `Quot.sound`.  There is no
`sorry`, no added axiom, no `native_decide`, no `bv_decide`, no `implemented_by`.
`decide +kernel` is used only to evaluate concrete witnesses and examples.

**The model is hand-written.** That the Lean definitions say what the C++ says is by
reading; each definition cites the lines it follows.

### Modelled

| file | what |
|------|------|
| track_management.hpp | everything (thresholds, three hash maps, all calls) |
| dynamic_object.hpp | objects, accessors on single objects and two-alternative variants, `make_track`, `make_detection`, setters with their exceptions |
| scoring.hpp, gating.hpp | everything except the visitor plumbing |
| track_matching.hpp, detail/dlib_extensions.hpp | `HasAssociation`, score/cost matrix, padding, `association_map`, `gnn_associator`; IEEE arithmetic |
| fusing.hpp | everything, in ℝ; `covariance_intersection_visitor` also in IEEE arithmetic |
| angle.hpp, ctrv_model.hpp/.cpp, ctra_model.hpp/.cpp | angles, states, arithmetic, comparison, `next_state`, distances, process noise, rounding, in ℝ; `euclidean_distance`, `mahalanobis_distance`, `get_angle`, the arithmetic operators, vector conversion, rounding, comparison and `get_next_state` also in IEEE arithmetic; `print_state` |
| unscented_transform.hpp, unscented_kalman_filter.hpp, temporal_alignment.hpp | everything, in ℝ; also in IEEE arithmetic |
| clustering.hpp | everything, generic in the points: in ℝ and in IEEE arithmetic |
| json_parsing.hpp | value access and loaders on a JSON value tree |
| augmented_state.hpp | everything, in ℝ; `from_eigen_vector` and the operators + and - also in IEEE arithmetic |
| uuid.hpp, utils.hpp | everything; printing assumes a stream in its initial state that does not fail |

### Not modelled

* `hash` values other than "equal
  arguments, equal result", `covariance_calibration.hpp` (empty function),
  `visitor.hpp`, `remove_cvref.hpp` (type-level only), `units.hpp` beyond dropping
  units.
* The text → JSON parser and file access; the model starts from a parsed document.
* Compilation itself: overload resolution, template instantiation, Eigen expression
  templates and their lifetimes (assumed to evaluate to the written formula).  The variant
  overloads of `set_state`, `set_state_covariance`, `copy_state` and `copy_state_covariance`
  pass objects with a `std::string` through `...`, which is only conditionally supported by
  C++ (GCC supports it); the model assumes that it compiles and that the function is called.
* Memory exhaustion, threads.
* The main program: the repository has none.  `Model/Pipeline.lean` is the
  composition the documentation describes.

### Assumptions about external code

* **`std::ostream`** writes a `double` as `printf` with `%g` and six digits does
  (`FP.text`, correctly rounded), Eigen a matrix with aligned columns, `units` a number,
  then a space and the name of the unit.  Used by C105 only.  Signs of zero and of NaN are
  not modelled.
* **dlib `max_cost_assignment`** returns a permutation (`IsPermSolver`) or a
  maximum-cost permutation (`IsOptimalSolver`) over ℤ.  Solver-independent theorems only use
  `IsPermSolver`.  `Model/Solver.lean` models the procedure itself, from knowledge of dlib 19 (it
  is not in the repository): C116 proves that it meets the contract, in `int` for all matrices
  the associator builds from no more tracks than detections.  With more tracks than detections
  it overflows (C70, C117), so there the contract is an assumption about what a compiler
  makes of undefined behaviour, and with wraparound it is false (C118).  Only C116-C118 use this
  model; its only test is that it passes the tests of `test_track_matching.cpp`
  (`Checks/TestSolver.lean`).
* **Eigen `llt`** returns a lower triangular `L` with `L Lᵀ = P` for positive definite
  `P` (`IsLlt`); what it returns otherwise is left open, except in C121, which models the
  procedure (`Model/Llt.lean`, from knowledge of Eigen 3; the CTRA unit tests, whose covariance is not positive definite, agree with it, section 7) and proves this
  contract.  C122 models it on `float`s (`Model/FloatLlt.lean`): every operation rounded, sums in
  any order, no fused multiply-add.  The predictions on floats (C94, C95) take any matrix as
  the factor, so also what this procedure returns.  `inverse`, `determinant`, `dot` have their mathematical meaning.  For C97 `inverse` of a 3×3 matrix is computed from
  cofactors, the determinant along the first column and one reciprocal (from memory of the
  library, not checked here).  For C98 (only the statements about diagonal covariances)
  `inverse` and `determinant` of a diagonal 5×5 or 6×6 `float` matrix give the rounded
  reciprocals and the rounded product, taken in some fixed order (`EigenF.Diagonal`; matrices of
  fixed and of dynamic size may be inverted by different code; both go
  through an LU decomposition that has nothing to do there; from memory, not checked).
* **nlohmann::json**: `at` throws on missing keys and wrong container types, `get`
  throws on wrong value types, numbers and booleans convert to `float`, range-`for` over
  a non-array follows its iterators.  Integers are not rounded on conversion.  From
  memory of the library, not checked here.
* **units.h**: `==` on floating-point units is "almost equal" with relative tolerance
  machine epsilon.  From memory of the library, not checked here.
* **IEEE arithmetic** (association costs, C85–C92, C94, C95, C97–C99, C101, C103, C104, C111, C120, C122, C123, C125, C128, C129, C132): binary32/binary64, round to nearest
  even, `FLT_EVAL_METHOD == 0`, no fused multiply-add; the sign of zero is dropped (it
  cannot influence the costs, nor more than the sign of a zero in predicted states).
* `int` loop counters (association_map, utils) are assumed not to overflow.

### Exact real arithmetic

Everything about motion models, distances, fusing, unscented transform and rounding is
over ℝ: `float`/`double` rounding and conversions, infinities and NaN are outside those
theorems.  Exceptions, in IEEE arithmetic: association costs (C19-C24), the Euclidean score
(C85, C86), rounding to decimal places (C87), `get_angle` (C88), prediction of states
(C89, C90), the weights and weighted sums of the sigma points (C91, C92), the whole
prediction (C94, C95), the Mahalanobis score (C97), fusing (C98), clustering (C99), the
spread of NaN (C101), time steps (C103), comparison (C104) and the arithmetic of states (C111).  What these assume of the mathematical library:

- C87: `std::pow(10, d)` is the `double` nearest to 10^d.
- C88: `std::arg` returns a number in [-π, π] (the `double` π).
- C89, C90, C111, only the accuracy statements: `std::sin`, `std::cos` err by at most 2⁻⁵² and
  `std::arg` of an `Angle` by at most 2⁻⁵⁰ for arguments up to 2²¹.  The theorems
  `exists_accurateTrig` and `exists_libm` show that the assumptions can be met.
- C99: `std::pow(x, 2)` is not negative, errs by at most 2⁻⁵² of its value (and 2⁻²⁰⁰) for |x| up
  to 2¹⁰¹ and keeps infinities and NaN (`Squares`; a rounded multiplication meets this); the
  heading statements assume `std::arg` as above.

Where floats could produce infinities or NaN in the other parts (division by zero, inverse
of a singular matrix, root of a negative number) the model returns the outcome
`ub .notReal` rather than a totalised value; that constructor therefore means "no real
value", not C++ undefined behaviour.

## 5. Properties found false

For these the negation is proved with a concrete witness, and a `_partial` theorem (or an
exact characterisation) states what holds: C13, C21 (exact optimality), C22, C23, C24,
C35, C37, C41, C42 (negative centre weight), C56, C60, C62, C65, C66 (idempotence for whole states; exact condition proved), C68, C70, C71, C72, C77,
C78 (Euclidean score), C87 (idempotence in `double`), C89 and C90 (prediction as computed
moves an object by speed times time, keeps it with time step 0, and is finite), C91 (weights
are finite and sum to 1), C92 (symmetry of the computed covariance), C93, C94 (prediction keeps coordinates that are not `float`s; is finite), C97 (a finite score for every
positive definite covariance; stated as part of the property), C98 (fusing equal objects keeps
the state; finite results; stated as part of the property).

## 6. Mutation testing

`seeded/LOG.jsonl` lists wrong variants of the model that were built in a scratch copy,
with the theorems that failed and, where a variant survived, what was tightened.

## 7. The repository's unit tests, run on the model

The model is written by hand, so a wrong reading of the C++ code would not be noticed by any
proof.  As a check on it, `Verif/Checks` states for unit tests in `/repo/test` that the model
yields the values the test expects, with the tolerance of the test.  These theorems are tests of
the model on fixed inputs; they are not properties, and no property relies on them.

* `TestTracking.lean`: `test_track_management.cpp`, `test_gating.cpp`, `test_track_matching.cpp`
  (for every solver that meets dlib's contract).
* `TestSolver.lean`: `test_track_matching.cpp` with the modelled solver.
* `TestStates.lean`: `test_angle.cpp`, `test_ctrv_model.cpp`, `test_ctra_model.cpp`.
* `TestScoring.lean`: `test_scoring.cpp`, `test_clustering.cpp`.
* `TestUkf.lean`: the CTRV tests of `test_unscented_kalman_filter.cpp` and `test_temporal_alignment.cpp`,
  for every Cholesky factorisation that meets Eigen's contract.  The values expected by the second
  are reached only with the swapped last two arguments of temporal_alignment.hpp:54-62, which confirms
  that reading of the code.
* `TestUkfCtra.lean`: the CTRA tests of these two files (the track tests repeat the numbers of the detection
  tests).  Their covariance has the variance −0.8701, so
  Eigen's contract says nothing about its factor; they are run with the model of Eigen's procedure (C121), which
  gives up in the last column and leaves −0.8701 there.  The expected values, among them the
  variance 289.23456, are met: the expectations were recorded from a failed decomposition.
* `TestFusing.lean`, `TestUt.lean`: `test_fusing.cpp` (the tests that are not commented out) and
  `test_unscented_transform.cpp`.  The covariances of `PartialMatchedAssociations` are neither symmetric
  nor positive definite, and one weight is −79.18….
* `TestJson.lean`: `test_json_parsing.cpp`, `test_detection.cpp` and the comparisons of the state tests.
* `Interval.lean`, `IntervalUkf.lean`, `IntervalCtra.lean`: interval arithmetic over the rationals, used to evaluate square
  roots, sines, cosines, predictions, weighted means and covariances with a proved error bound.
