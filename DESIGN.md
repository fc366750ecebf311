# Verification design for intvalpy

Target: `/repo` (AndrosovAS/intvalpy, pinned). The code is read as text; nothing is executed. Everything
below is modelled by hand in Lean 4 and proved with Lean's kernel.

## 1. Trusted base

* **Lean 4.33 kernel** and the Mathlib source shipped with the sandbox. Theorems depend on at most the three standard
  axioms `propext`, `Classical.choice`, `Quot.sound` (checked by the gate for every constant; no other axiom is declared).
* **The hand translation** Python/Cython -> Lean. Each model definition cites file and lines. Nothing ties the two
  mechanically, but the float level is compared with real runs: /repo/test/unittests_ITF1788/test_results.txt records what
  the library did on 1272 IEEE 1788 test vectors (789 passed, 161 failed with the value shown in the message, 322 raised).
  `Runs.all_agree` shows that the model gives the recorded outcome for all 1262 of them that concern modelled functions of
  floats (the others are about `None` and a function defined in the test). With correctly rounded `exp`,
  `log`, `sin`, `cos` no exception was needed, so the record supports `ExpOK`, `LogOK`, `TrigOK` too. Further comparisons,
  all evaluated by the kernel:
  * `RunsBasic`: the assertions of /repo/test/test_basic.py and /repo/test/interval_properties.py about operations and
    attributes; all hold except `Interval(1, 2) / Interval(2, 5) == Interval(0.2, 1)`, which directed rounding breaks;
  * `Docs`: the values printed in the documentation for `lineqs`, `Gauss`, `Gauss_Seidel`, `Rohn`, `Tol.value`,
    `Uni.value`, `intersection` and `@`; two documented calls do not work with the present code (`intersection` with a number,
    a constraint with two-sided bounds);
  * `RunsRalg`: `Tol.maximize` and `Uni.maximize` of the documentation: point, value, number of iterations, number of calls
    and exit code;
  * `RunsOpt`: four of the runs of `globopt` recorded in /repo/test/optimization/intvalpy_result.txt, with 60 to 146
    passes, in binary64; `Force` holds what the kernel needs to evaluate them;
  * `RunsPPS`: the documented result of `PPS` for `Neumeier(5, 10)` (all components, 25 passes for the first), with the
    models of `HBR` and `Gauss` inside and an exact `np.linalg.inv`. This one is evaluated by Lean's interpreter (`#guard`),
    because the kernel would need 15 GB; `RunsPPS.documented` shows that the evaluated terms are what `pps` returns.
* **Numeric platform assumptions**, each of them an explicit parameter or hypothesis, never an axiom:
  * doubles behave as IEEE-754 numbers of some format: `+ - * /` return the exact result rounded in the active mode;
    the mode is the one set by `fesetround`, and the C compiler does not move floating-point operations across
    `fesetround` (gcc is not run with `-frounding-math`; we trust this);
  * libm (`exp`, `log`, `sin`, `cos`, `pow`) is an oracle with an accuracy hypothesis stated in the theorem that uses it;
  * `numpy.linalg.inv/pinv/lstsq/solve`, `cvxopt.solvers.lp`, `np.roots`, random sampling: arbitrary oracles; when a property
    needs them to be right the hypothesis is in the theorem statement. The names of these hypotheses are:
    * `ExpOK`, `LogOK`, `TrigOK`: accuracy of libm in the active rounding mode (C28, C29, C71);
    * `PowIEEE`: directed powers of single numbers, IEEE values at infinities (C136);
    * `InvExact`, `PpsTotal`: `np.linalg.inv` returns an inverse if it returns, and does so for regular matrices (C44, C60,
      C79, C80); `C44_inexact_inverse_false` shows what happens without it;
    * `SolveOK`, `PpsSolveOK`: `np.linalg.solve` returns a solution (C47, C80);
    * `LpOK`, `LpComplete`: `cvxopt.solvers.lp` is exact and never claims infeasibility wrongly (C43, C52); both are shown
      satisfiable by a constructed solver;
    * `RootsOK`: the polynomial root finder lists every stationary point (C54, C78);
    * `MidOK`: the midpoint computed in the rounded arithmetic lies in the interval (C39, C41), proved for exact arithmetic
      and for binary64 without overflow.
  * Norms and normalisations inside `ralgb5` are arbitrary functions. Functions supplied by the user of the nonlinear solvers
    are parameters with an enclosure hypothesis.
  * Numpy operations on plain float arrays (as opposed to interval arrays) are exact in the L2 models of `HBR`, `Neumaier`,
    `Rohn`, `Subdiff`, `PSS`, `PPS`, the functionals and the regression classes. Interval operations are rounded by an
    arbitrary `Rnd` unless the theorem says `Rnd.exact`. A numpy division by zero, which in Python is a warning and `inf` or
    `nan`, is reported as an error value in these models; theorems about returned boxes then say nothing for such runs.
* Signed zeros are identified. `mpf` inputs are converted to double by the constructor and not modelled further
  (`precision.extendedPrecisionQ` has no effect in this version of the code).

## 2. Levels of the model

* **L1, floats** (`Fl*`): endpoints are Python numbers, an exact `int` or a double (finite, +-inf, nan);
  every operation runs in a monad carrying the process rounding mode and Python exceptions. Used for the
  properties about rounding direction, overflow, integer endpoints, and rounding-mode restoration.
* **L2, finite rounded arithmetic** (`Model*`): endpoints are elements of an ordered field `K` and every rounded
  operation applies `dn` / `up` / `nr` from an arbitrary structure `Rnd` with `dn x <= x <= up x` (monotone).
  `Rnd.exact` (all three = identity) is the exact-arithmetic instance. Overflow and NaN are not represented at this
  level, except where the code branches on NaN (`intersection`), which is an `Option`.
  A refinement theorem ties L1 to L2 for finite endpoints without overflow.
* **Spec** (`Spec*`): point sets, solution sets, feasible sets; no reference to model helpers.
* **Props** (`Props*`): the property theorems, one name prefix per property id, each with an `example` showing that its
  hypotheses can be met.

Python exceptions are values of `Except Err`. Loops are folds or fuel recursion with the fuel being the loop bound of
the code (`maxiter`), so no artificial bound is introduced.

## 3. Plan per property

| id | modelled | proof |
|----|----------|-------|
| C01 C02 C03 C05 | classical `+ - * /` and reflected forms, L2 for every `Rnd`, and L1 | algebraic, monotone rounding; L1 through refinement |
| C04 | number branch of `/`: reciprocal rounded to nearest | negation with a concrete binary64 witness; `_partial` when the reciprocal is exact |
| C06 | `**` with natural exponent, libm `pow` assumed directed | parity case analysis, unbounded exponent |
| C07 | rounding mode as state, exceptions as values | every operation preserves the state |
| C08 | integer endpoints, `PyLong_AsDouble` rounds to nearest | witness beyond 2^53 and `_partial` for convertible integers; for all sizes the rounded ends and an iff |
| C09 | numpy dispatch of `/` | witness; `_partial` for divisors without zero |
| C10 | all operations of both classes | invariant by induction over expressions; `inv` excluded with witness |
| C11 C12 | exact and rounded expression evaluation | attainment; structural induction |
| C13 C14 C15 C16 C17 C87 | Kaucher operations | ordered-field algebra, witnesses for the false parts |
| C18 C19 C20 C21 C22 | comparison, containment, characteristics, constructors | case analysis; witnesses for the false parts |
| C23 C24 C58 C59 C89 | `intersection`, `dist`, `sign`, `subset`, ... | set characterisations; Minkowski's inequality |
| C25 | heap of interval arrays, references | frame property by induction over operation sequences |
| C26 C27 C57 C56 | matrices as functions on `Fin n` | induction on length |
| C28 C29 | real functions from Mathlib, libm oracle | real analysis |
| C30 - C34, C36 | recognising functionals over `Fin m -> Fin n -> Iv K` | Oettli-Prager style equivalences; concavity |
| C88 | `ive`: random draws as a list, `cond` and `sqrt` as parameters | least drawn value as loop invariant |
| C91 C92 | dispatch of the operators over kinds of operands, broadcasting | element lemmas C01-C06, induction over the loops |
| C93 | test of `Gauss_Seidel` | minimum principle for the comparison matrix |
| C90 | all operators of the float level | refinement of the exact model with `Rnd.b64` |
| C94 - C97 | characteristics of intervals and helpers of `kernel/utils.py` on the float level | monotone rounding between representable bounds, error of one rounding, cast of `np.vectorize` |
| C98 C99 | nested lists | structural induction over the nesting; row-major positions |
| C100 | masks of `IPlot.scatter` | permutation of the list of pairs; convex hull of the corners |
| C101 C102 | `LinearConstraint` object with its stored factor, `maximize` | Lipschitz bound of the functional against the penalty, coordinate moves; executions |
| C103 - C105 | `Interval(...)` of nested lists with the element types of `np.array` and `np.stack` (`ModelConstruct`) | row-major positions (C99), casts; one rounding |
| C113 - C115 | comparisons, assignment, iteration and `in` of interval arrays (`ModelCompare`) | dispatch table; positions of broadcast arrays; witnesses for the unsupported pairs |
| C106 | search of `PSS` with an exact linear program | invariant: the bound of the search and every stored value are attained; work measure for the zero-free case |
| C107 C108 | objectives of `ISPAE` and `WILS` | intermediate values on the input box; affine pieces of the residuals; the decisive row alone for the norm `inf`, the exact error for `l1` |
| C116 - C118 | bias column; `fit` and `predict` of `ISPAE` and `WILS` as a whole | the bases as real polynomials of exact degree; values on a box form an interval; best point of `ralgb5` |
| C35 | control skeleton of `ralgb5` with an arbitrary objective | loop invariant |
| C109 - C112 | `ralgb5` with a Euclidean norm and a subgradient oracle | invariant of the dilation matrix (nonsingular); exact end of the line search; shrinking steps in one variable; simulation between runs in two coordinate systems |
| C37 - C46 | solvers as written | enclosure invariants, counterexamples where the code is wrong |
| C123 C124 | `HBR` with a matrix on the right (`ModelHBRMat`); optimality of `HBR` | witness; Z-matrix comparison (ratio argument), construction of the extremal systems |
| C127 | `globopt` reaches its tolerance | potential 2^(remaining bisections) - 1 summed over the list, decreasing with each pass |
| C128 | rate of convergence of `Gauss_Seidel` | one-sided distance of intervals (`Exc`), contraction of successive passes; exact arithmetic |
| C129 | rates of convergence of `Krawczyk` and `HansenSengupta` | width of one step computed exactly, then induction over the passes; exact arithmetic |
| C130 | `Gauss_Seidel` optimal for interval M-matrices | the lower ends nearly solve one system picked from the data (`gsBar_corner`, `corner_core`); exact arithmetic |
| C131 | value of `Tol`, `Uni`, `Uss` as a margin | shift of the right-hand side reduces every level to level zero (C30, C31); exact arithmetic |
| C132 | monotone dependence of `Tol`, `Uni`, `Uss` on the data; their order | from C131; exact arithmetic |
| C133 | interval exponents, `X ** Y` (`FIv.powIv`) | bounds of `log` (C28), enclosure of the product (C02, for a base touching zero C61), `exp`; NaN by C120 |
| C134 | comparisons and `in` on ends that are integers, doubles, infinities, NaN (`ModelFCompare`) | comparison with the extended reals, then sets of members; refinement C90 |
| C135 | quotients with infinite ends | one of the four quotients is a bound in every case; `min`/`max` pass over a NaN unless it comes first (C120); exact condition |
| C136 | natural powers with infinite ends | cases on parity, sign and the two ends; the power of one number is a parameter (`PowIEEE`) |
| C137 | `dist` in double arithmetic | rounding to nearest is monotone, so it passes through modulus and maximum; differences of doubles lie on the subnormal grid |
| C138 | `ChebNorm.minimize` | objective = `ChebNorm.value` + penalty for any solver, then C35; subgradient oracle for point matrices, then C111 |
| C139 | accuracy of the LP solver | products with near rows are near; stability of the test away from its switching point; truncation of `A_opt` as a cast parameter |
| C140 | elementary functions on arrays and lists | `elemNest` over `asintervalNest` (C99) and `npVectorize`; walk through the row-major list with the first failure; enclosures instantiate C28, C29, C58 |
| C141 | `Rohn` and emptiness | `rohn` composes `RecFun.maximize` (C36) with `rohnTol` (C43); strict run of `ralgb5` for the witness |
| C142 | `globopt` on interval objects with mixed endpoints | potential of the list with one extra unit for boxes whose first component still has two integer endpoints |
| C143 | side of the equations on which the result of `Subdiff` lies | the ends of a product are minima or maxima of linear functions of which `calcSubgrad` picks one (sixteen cases); last step of the loop; explicit run in a circle |
| C144 | whether `Subdiff` finds the formal solution | explicit run in a circle; blocks depend on signs only away from two cases, so one step lands on the solution |
| C145 | `miranda` certifies a zero | Poincaré–Miranda theorem proved by a mod-2 cochain argument on grids and compactness; signs on faces |
| C146 | sign of the nonlinear `Tol`, `Uni` | case analysis on ends |
| C147 | gradient of the nonlinear functionals, `maximize` | counterexample `a x`, `x < 0`; subgradient inequality from the slopes of the ends; `C35` |
| C148 | a result of `HansenSengupta`/`Krawczyk` inside `x0` proves a zero | an end that moves fixes the sign of `f` there; invariant of the loop with the slack of `intersection`; intermediate value theorem |
| C149 | laws of the operations | product by the signs of the ends (27 cases and negation); subdistributivity from Kaucher's min/max form; counterexample with mixed classes |
| C150 | Gauss_Seidel result inside the start box is a certificate | a point solving each equation as well as the start box allows (Poincare-Miranda) is never lost; if it ends in the interior it is a solution; a kernel would give a line of solutions leaving the box; rational data by density |
| C151 | convergence of Rohn proves full rank | a kernel vector satisfies `abs v <= G abs v`, the last pass gives `G d + g < d` |
| C152 | narrower data, narrower results of `@` and `Gauss_Seidel` | each operation is isotone (rounding is monotone), both runs side by side; counterexample with an early stop |
| C153 | widths, magnitudes and distances of results | points attaining the ends (C11) and the characteristics (C20), Hausdorff form of `dist` (C24) |
| C154 | an answer of `HBR` proves regularity | explicit adjugate for three unknowns, Z-matrix argument when all of `u` is positive; counterexample with four unknowns |
| C155 | an answer of `Gauss` proves regularity | the same run with right-hand side 0; a line of solutions does not fit into a box; counterexample with three unknowns |
| C156 | laws under rounding | endpoint formulas; counterexamples with binary64 |
| C157 | `Subdiff` does not depend on the number type of `b` | the views are used for the start only, so what holds for every start is unaffected; two explicit runs of the default call |
| C158 | PSS and the number types of the matrix | partial: enclosure for every classification of the rows (induction over the passes), same result when the column views are right; counterexample after one pass |
| C159 | dual, opp, pro and khi for every kind of endpoint | L1 definitions of the four properties; case analysis on the kinds of both ends; gap between different binary64 numbers for the exact condition khi = 1; witnesses with a NaN end and with integers above 2^53 |
| C160 | Rohn in double arithmetic | model of the function with every numpy operation rounded; equality with the exact model without rounding; contraction argument for exactly verified radii; two binary64 runs computed by the kernel |
| C161 | Krawczyk and HansenSengupta on unbounded and very wide intervals | float-level model of both functions with infinite ends; induction over the passes with the float intersection theorem of C23; single steps from the float theorems C01, C05, C61, C135; general counterexample for `[a, inf]`, kernel run for an overflowing midpoint |
| C162 | Gauss_Seidel with unbounded start boxes | float-level model of the iteration; every intermediate interval contains its value or is `[nan, nan]`, by the float theorems C01, C05, C61, C120, C135; NaN cannot survive the test after the intersection; kernel run for the wrong exception |
| C125 C126 | sign of the computed `Tol.value` and `Uni.value` in binary64 | case analysis on the binades of midpoint, radius and ends: multiples of half an ulp of the midpoint; witness for `Uni` |
| C47 | sixteen-case table | case analysis against the product model |
| C48 - C51 | orthant systems, preprocessing, boundary intervals, module-global state | equivalences, witnesses |
| C52 C53 | branch-and-bound list with oracle bound; extended division | invariants |
| C54 C55 | polynomial range, weight smoothing with shared arrays | extreme value theorem; store-passing model |
| C60 C79 C80 | whole of `PPS`: tags, splitting, bounding, list, loop | branch-and-bound invariant following one minimising vertex system; attained upper bounds; execution of the failing paths |
| C61 - C66 C71 C72 | infinite endpoints, rounding of the Kaucher product, endpoint views, numpy functions, `del`, `shape`, real powers, arrays over intervals | case analysis on the float model; witnesses for the false parts |
| C67 - C70 C76 C78 | (sub)gradients of the functionals, penalty factor, case table of `Subdiff` | inequalities over all pairs of points |
| C81 C82 | the vertex lists of `lineqs` and `IntLinIncR2` | closed cycle of edges: a local optimum is global, unique neighbours; degenerate sets separately |
| C83 - C86 | `lineqs3D`, `IntLinIncR3` | every face is a plane problem in its own variables (C81); outline = all vertices, one cycle per face, every facet; history as state |
| C73 C74 | automatic window of `lineqs`; whether `PSS` returns | executions and invariants |
| C119 | numbers shown by `%.6g` | decimal rounding: error, order, exact decimals |
| C121 | natural powers with an accurate but undirected `pow` at L1 | error bound of the power function; witness with 54 bits |
| C122 | the tag loop of `PPS`, then the whole search | invariant (tags are only set where there were none), number of missing tags as measure |
| C120 | NaN endpoints at L1 | what a computation can return, position of NaN in `min`/`max` |
| C75 C77 | weights of the regression classes | refinement against the plain objective |

## 4. What is modelled, file by file

| file in /repo/intvalpy | Lean modules | modelled | not modelled |
|---|---|---|---|
| `kernel/interval_arithmetics.pyx` | `ModelKernel` (L2), `ModelFloat` (L1), `ModelExpr`, `ModelPrint`, `ModelRuns` | both classes, all operators and reflected forms, numpy scalar dispatch, comparisons, containment, `pow`, characteristics, rounding mode switching, exceptions, the numbers shown by `__repr__` | the layout of the text, hashing, pickling |
| `kernel/real_intervals.py`, `kernel/abstract.py` | `ModelObjects`, `ModelInter` (binary64 `intersection`), `ModelFCompare` (binary64 comparisons), `ModelConstruct`, `ModelArray`, `ModelArrayOps`, `ModelCompare`, `ModelHeap` | constructor on numbers and nested lists with numpy element types, indexing, views, buffers and aliasing, `del`, arithmetic and comparisons of arrays, assignment, iteration, `@`, endpoint views with their numpy dtypes, `__array_ufunc__` and `__array_function__` dispatch of the functions used | printing |
| `kernel/new_objects.py`, `kernel/utils.py` | `ModelArray`, `ModelObjects`, `ModelUtils`, `ModelDist`, `ModelDistF` (binary64 `dist`) | all constructors, the set-like helpers, `wid` ... `khi`, `isnan` on numbers, intervals and arrays | - |
| `kernel/elementary_functions.py` | `ModelElem`, `ModelObjects`, `ModelElemArr` | `sqrt`, `exp`, `log`, `sin`, `cos`, `sign` on numbers, intervals, arrays and nested lists | - |
| `kernel/ralgb5.py` | `ModelRecFun` | whole function: step adaptation, space transformation, stopping, best record | printing |
| `kernel/preprocessing.py` | `ModelBoundary`, `ModelObjects`, `ModelUtils` | `clear_zero_rows`, `non_repeat`, box vertices, windows, `intersection`, `get_shape`, `asinterval` | strings and other foreign objects as list items |
| `kernel/visualization.py` | `ModelUtils` | which boxes `scatter` draws and how | choice of axes, matplotlib |
| `linear/Tol.py`, `Uni.py`, `Uss.py`, `BaseTools` of `kernel/abstract.py` | `ModelRecFun`, `ModelPenalty` | value, gradient, objective with `LinearConstraint`, default penalty factor and its storage in the object, maximisation | - |
| `linear/Gauss.py`, `Gauss_Seidel.py`, `HBR.py`, `Neumaier.py`, `Rohn.py`, `ChebNorm.py` | `ModelLinear`, `ModelHBRMat`, `ModelRohnFull`, `ModelRecFun`, `ModelChebMin` | whole functions | printing |
| `linear/Subdiff.py` | `ModelSubdiff`, `ModelSubdiffViews` (objects: start from the views) | case table, residual, whole loop, inclusion on one side (C143) | - |
| `linear/PSS.py` | `ModelPSS`, `ModelPSSViews`, `ModelPSSClass` | whole function (bound by Gauss, linear programs, extended division, list) | - |
| `linear/PPS.py` | `ModelPPS` | whole function (tags, split, monotony test, list, bounds) | the branch on `Lk`, which is always empty |
| `linear/boundary_intervals.py` | `ModelBoundary`, `ModelBoundary3D` | plane and space, orthant systems, boundary intervals, faces, windows, module-level history | matplotlib and mayavi calls |
| `linear/system_properties.py` | `ModelSysProp` | `ive` for every sequence of random draws | the printed warning |
| `nonlinear/globopt.py`, `external_evaluation.py` | `ModelNonlinear`, `ModelGlobViews` | whole functions for user-supplied extensions | - |
| `nonlinear/recognizing_functional.py`, `solution_existence.py` | ModelNlRec | C145–C147 | these modules import names that do not exist and cannot be loaded as shipped; the text is modelled with the names bound to the present package |
| `models/WILS.py`, `models/ISPAE.py` | `ModelModels`, `ModelIspae` | weight smoothing, objectives, gradients, value, predict, bases, bias column, the whole of `fit` | the least-squares initial guess, plotting |
| functions of several files that read `A.a`, `A.b` | `ModelViews`, `ModelPSSViews` | `vertex`, `dist`, inclusion tests, `Rohn`, orthant systems, `scatter`, WILS subgradient, search of `PSS` on objects with integer and float endpoints | - |

The float level is tied to the field level by refinement theorems (`ProofsFloat`, `PropsFloatEnc`, `PropsElemRef`, `PropsRefine`).
`PpsProp.run` is the one loop of the code without a bound of its own; it gets fuel, and running out of fuel is a separate
result (`.error none`) which no theorem identifies with an answer. `2 n + 1` passes are always enough (C122).

## 5. Disagreements with the documentation and defects found

Each of these is a theorem ending in `_false` (or the theorem named), with a concrete witness.

1. Division by a plain number rounds the reciprocal to nearest (C04); the same in expressions (C12).
2. Integer endpoints beyond 2^53 lose containment (C08).
3. Numpy scalars and arrays divided by intervals skip the zero test (C09, C72).
4. Classical times Kaucher-class proper interval spanning zero (C15); class of `inv` for improper intervals (C16); the
   Kaucher product runs in one rounding mode (C62); even powers of negative improper intervals come out proper (C87).
5. `in` and `supercontain` on arrays use any-semantics (C19, C59); `Interval(4)` raises (C22); conversion promised by
   `intersection` raises (C23).
6. Infinite endpoints: `[-inf, 1] * [0, 1]` is `[nan, nan]` (C61); zero over an interval with a reciprocal that overflows
   (C05).
7. `exp` that overflows returns `[inf, inf]` (C28); `sin` and `cos` of arguments beyond about 10^15 (C29); negative real
   powers of intervals touching zero (C71).
8. `Interval.a` on arrays whose first endpoint is an int truncates all the others, which also breaks `Tol` and its gradient
   and `ive` (C63, C32, C88); `dist` accepts negative orders (C89); numpy functions ignore operands (C64); `del` with slices (C65); in-place operations that enlarge (C66).
9. `Gauss` multiplies rows elementwise and is wrong from three unknowns on, also for strictly dominant matrices; it is
   right when the subtracted products contain the right ones, as for the Shary and Neumaier test systems (C37); `HBR` accepts matrices that are not
   H-matrices because of `any` for `all`, and adds the number `v @ w` instead of a matrix to an approximate inverse (C44); `Neumaier` uses radii of rows for components (C45); `ChebNorm` compares the
   wrong candidates (C46); `Subdiff` has a wrong sign in one of sixteen cases (C47); on dual matrices the default call can run in a circle and return a box of non-solutions (C143).
10. `Rohn` (united set) is safe only on the tolerance stop (C42); vector `HansenSengupta` and `Krawczyk` always raise
    (C40).
11. Preprocessing drops and merges rows (C49); `IntLinIncR3` shifts right-hand sides (C48); `lineqs` answers "empty" for
    zero rows (C50), remembers the previous call (C51), may choose a window that misses the set (C73) and merges vertices closer than
    `1e-8` (C81, C82).
12. `PSS`: start box used unchanged for the negated system (C52), zero divisors and nearest quotients in the extended
    division (C53), which exclude solutions from the returned bounds (C52), working list runs empty (C74; on start boxes without zeros exactly when all solutions share the upper start bound).
13. `PPS`: point matrices end in `UnboundLocalError` (C60); zero derivatives spoil the tags and solutions are lost (C79,
    C80).
14. Gradients: `Uni` and `Uss` at kinks (C67), `ChebNorm` without the weight (C69), `ISPAE` of the natural extension
    instead of the range (C78). Penalty factor infinite for two-sided constraints (C68).
15. `WILS.fit` and `ISPAE.fit` change the caller's weights (C55) and truncate integer weights (C77).
16. `LinearConstraint` without usable rows raises or drops unsatisfiable rows (C34). `Shary(alpha=0)` is accepted (C56).
17. `lineqs3D` loses small coefficients and rows (C83), raises `IndexError` for slabs and half-spaces and centres its
    window on the mean of `x + y + z` (C84); `IntLinIncR3` depends on earlier calls (C85) and drops orthant rows (C86).
18. An interval combined with a numpy array gives a plain numpy array (C92), and division by such an array with a zero raises
    nothing (C91); the H-matrix test of `Gauss_Seidel` passes on one positive row and rejects negative diagonals (C93).
19. `mid` overflows and leaves the interval for large endpoints (C94), midpoint and radius do not cover the interval exactly
    (C95); `wid` and `khi` of arrays are truncated when the first value is an integer (C96); `wid(3)` is `3.0` (C97);
    `get_shape` follows only the first items, raises for intervals and drops outer axes (C98).
20. The default penalty factor does not make the penalty exact for rows with coefficients of both signs and for weights above
    one (C101); it is stored in the constraint object and kept for other systems (C102).
21. `Interval(l, r)` of lists that hold a float rounds the integers of the lists to the nearest double (C103); the
    midpoint-radius form rounds to nearest, not outward (C104); further entries of the last axis are ignored, so that
    `Interval([5, 7, 9])` is `[5, 7]` (C105).
22. A start bound of `PSS` with an end equal to zero removes the unknown from the linear program, and the bound returned is
    wrong (C106); the vector of the objective `Uni` of `ISPAE` and `WILS` is not zero where the function is constant (C108).
23. The test against `tolf` in `ralgb5` is absolute when the record is at most one in absolute value, so that the run depends on
    the units of the objective although the tolerance is documented as relative (C112).
24. An interval array cannot be compared with an interval, in either order, and `np.float64(3) < X` raises although
    `X > np.float64(3)` works (C113); `A[0] = [5, 7]` stores an array in the cell without raising, after which `A.a` raises
    (C114); a loop over a matrix gives plain numpy arrays and `reversed(A)` raises (C115).
25. With `basis='laguerre'` the bias column of `ISPAE` is `1 - 1 = 0`: the documented constant term is missing (C116).
26. The text printed for an interval rounds both endpoints to the nearest number with six significant digits, so that it
    need not contain the interval (C119).
27. A NaN in the upper end of a classical interval disappears in products and quotients: `2 * Interval(1, nan)` is `[2, 2]`
    (C120).
28. The enclosure of `X ** n` for float endpoints depends on the C function `pow` following the rounding mode, which is not
    promised by any library; with a correctly rounded `pow` it fails (C121).
29. `HBR` with a two-dimensional right-hand side divides by the sums of the diagonals: `HBR(I, I)` does not contain `I` (C123).
30. `Uni.value` can be negative at a point of the united solution set: `b.mid` and `b.rad` are rounded to nearest, not outwards, `[1,1]x = [-4, -(1+7/2^52)]` at the upper end (C126). The positive values of `Tol.value` are safe (C125), the value zero is not.
31. `[0, 1] ** [0, 1]` is `[nan, nan]`: the product `0 * log(0)` is NaN (C133).
32. `intersection` passes over a NaN in the upper end of its first operand and the lower end of its second (C120).
33. `lineqs` with `bounds` that miss an unbounded set raises `TypeError` from inside `Intervals2Path` (C81).
34. `[-inf, 1] < [-inf, 2]` is `False`, although `1 < 2` and both lower ends are infinite (C134).
35. `ChebNorm` stores the answers of the LP solver in `np.zeros_like(infA)`: for integer endpoints a coefficient `-1.9999999` becomes `-1`, and `[-2,-1] x = 0` at `x = 1` has norm 1 instead of 2 (C139).
36. The functions that read `A.a`, `A.b` of an array get truncated endpoints when the first one is an `int` (C63): `vertex`, `dist`, `subset`, `Rohn(consistency="tol")` and `IntLinIncR2/R3` are wrong for the library's own `Shary_system` , `scatter` and the subgradients of `WILS` (C24, C27, C43, C48, C59, C76, C100).
37. `PSS` for more rows than columns: when `Rohn` raises (midpoint matrix without full rank) the search starts in `±1e14`, and these numbers are returned as bounds of unbounded solution sets (C52).
38. `PSS` with a start box of integer endpoints (a given `x0`, or the `±10**14` of lines 141, 146) and three or more unknowns: `Q.a`, `Q.b` in `ExactOmega` are cast to integers, a half such as `[0.5, 1]` is read as `[0, 1]` with sign 0, and the lower bound returned is above solutions (C52).
39. `Rohn(consistency="tol")` refuses systems whose tolerable set has no interior: the maximum of `Tol` is zero and `ralgb5` stops just below it (C141).
40. `globopt` wastes passes on start boxes with integer endpoints: while the first component has two integer ends, `np.argmax(Y.wid)` compares truncated widths and may bisect a point (C142).
41. `Subdiff` with default parameters can alternate between two vectors although a formal solution exists, and returns one of them like a solution (C144, also C143).
42. The nonlinear `Tol.calcfg` and `Uni.calcfg` take the ends of the interval derivative for the derivatives of the ends of the model, which is wrong already for `a * x` with negative `x` (C147).
43. `Gauss` returns a point for a singular 3x3 point matrix and a right-hand side without solution (C155); `HBR` returns for 4x4 matrices that contain singular ones (C154).
44. `Subdiff` takes its start from the endpoint views of `b`, which truncate when the first endpoint is an integer (C63): the same right-hand side gives the formal solution with floats and a vector that is none with integers in the first interval (C157).
45. `PSS` classifies the rows of a column from its endpoint views (line 214), which truncate when the first row holds an integer (C63): a coefficient `[0.5, 2]` is then treated as containing zero and the bounds, still valid, can be much wider than with floats; in the example no number of passes brings the lower bound above -50 although the component is at least 10 (C158).
46. `pro` of an improper object whose upper end is NaN is the point interval of its lower end, because `min` and `max` pass over a NaN in second place (lines 156-161); `khi` compares `fabs` values, which round integers above 2^53, so that it can exceed 1, and it raises `ZeroDivisionError` for `[0, nan]` (C159).
47. `Rohn` stops when the change of one pass is below `tol`, and adds exactly `tol` in every pass: for `[0, 2] x = 0` the rounded difference `4e-12 - 3e-12` is less than `1e-12`, so the iteration "converges" to `[-4e-12, 4e-12]` although every number is a solution; for large right-hand sides `x0 - result`, `x0 + result`, rounded to nearest, lose solutions (C160).
48. `Krawczyk` and `HansenSengupta` return NaN, the answer "no zeros", for every unbounded `x0` and for bounded ones whose midpoint overflows, e.g. `x - 1` on `[0, inf]`: the midpoint is infinite and `c - f(c)` is NaN (C161).
49. `Gauss_Seidel` raises "The united solution set does not intersect the bar X." for systems with a solution when a zero coefficient meets a start interval with lower end `-inf`, e.g. the identity matrix on the whole plane: `0 * -inf` is NaN (C162).

Observed while reading, not theorems: `PPS` line 333 uses an undefined name `rt` (unreachable); `IntLinIncR2/R3` with a point matrix and interval right-hand side raise `AttributeError`; `WILS` with an unknown norm
raises `UnboundLocalError`.
