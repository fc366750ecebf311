import Verif.ModelRecFun
import Verif.ModelKernel
import Mathlib.Algebra.Order.Floor.Defs
import Mathlib.Data.Rat.Floor

/-!
# Interval regression models

/repo/intvalpy/models/WILS.py and /repo/intvalpy/models/ISPAE.py.  The smoothing of the weights is modelled with the
rounding of floating-point numbers; the functionals in exact arithmetic, as in `ModelRecFun`.  Weights are modelled as
a list, since `fit` writes into the array of the caller; `st` is what storing a number in that array does (nothing for
an array of floats, truncation for an array of integers).
-/

set_option autoImplicit false
set_option linter.unusedSectionVars false

namespace IntvalPy

variable {K : Type*} [Field K] [LinearOrder K] {m n : ℕ}

/-! ## Weights -/

/-- The loop over `k >= 1`, /repo/intvalpy/models/WILS.py:113-114 and ISPAE.py:352-353; `prev` is `weight[k-1]` after
its own assignment. -/
def smoothFrom (R : Rnd K) (st : K → K) (alpha beta : K) : K → List K → List K
  | _, [] => []
  | prev, w :: ws =>
      let w' := st (R.nr (beta * R.nr (R.nr (w * R.nr (1 - alpha)) + R.nr (alpha * prev))))
      w' :: smoothFrom R st alpha beta w' ws

/-- The smoothing, /repo/intvalpy/models/WILS.py:112-114 and ISPAE.py:351-353. -/
def smooth (R : Rnd K) (st : K → K) (alpha beta : K) : List K → List K
  | [] => []
  | w :: ws =>
      let w' := st (R.nr (R.nr (beta * w) * R.nr (1 - alpha)))
      w' :: smoothFrom R st alpha beta w' ws

/-- Storing a number in an array of integers truncates it towards zero. -/
def intStore (q : ℚ) : ℚ := if 0 ≤ q then (⌊q⌋ : ℚ) else (⌈q⌉ : ℚ)

/-- The weights of `fit`, /repo/intvalpy/models/WILS.py:109-114 (and ISPAE.py:349-353), for `N` rows: the array the
functional uses, which is also the array of the caller when one was given; too short an array raises
`IndexError`. -/
def fitWeights (R : Rnd K) (st : K → K) (alpha beta : K) (N : ℕ) (weight : Option (List K)) :
    Except Err (List K) :=
  match weight with
  | none => if N = 0 then .error .indexError else .ok (smooth R id alpha beta (List.replicate N 1))
  | some w =>
      if N = 0 ∨ w.length < N then .error .indexError
      else .ok (smooth R st alpha beta (w.take N) ++ w.drop N)

/-! ## WILS -/

/-- The argument `norm`. -/
inductive NormArg
  | inf
  | l1
  | other
  deriving DecidableEq

/-- `_wrap_norm`, /repo/intvalpy/models/WILS.py:18-27 and ISPAE.py:45-69: another norm leaves `obj` unassigned. -/
def wrapNorm (norm : NormArg) (res : Fin m → K) : Except Err (K × List (Fin m)) :=
  match norm with
  | .inf =>
      match npArgmin res with
      | .error e => .error e
      | .ok i => .ok (res i, [i])
  | .l1 => .ok (∑ i, res i, List.finRange m)
  | .other => .error .unboundLocalError

/-- `residual`, /repo/intvalpy/models/WILS.py:36-40, 56, 72. -/
def wilsResidual (F : RecFun) (d : RecData K m n) (x : Fin n → K) (i : Fin m) : K :=
  match F with
  | .tol => d.weight i * (d.br i - max |infs d x i| |sups d x i|)
  | .uni => d.weight i * (d.br i - (if infs d x i * sups d x i ≤ 0 then 0 else min |infs d x i| |sups d x i|))
  | .uss => d.weight i * (d.br i + arx d x i - |d.bm i - amx d x i|)

/-- `diff`, /repo/intvalpy/models/WILS.py:45-48, 61, 77-80. -/
def wilsDiff (F : RecFun) (d : RecData K m n) (x : Fin n → K) (mc : Fin m) (j : Fin n) : K :=
  match F with
  | .tol =>
      if -(infs d x mc) ≤ sups d x mc then d.weight mc * mixRow (d.infA mc) (d.supA mc) x j
      else -d.weight mc * mixRow (d.supA mc) (d.infA mc) x j
  | .uni =>
      if -(infs d x mc) ≤ sups d x mc then d.weight mc * mixRow (d.supA mc) (d.infA mc) x j
      else -d.weight mc * mixRow (d.infA mc) (d.supA mc) x j
  | .uss => d.weight mc * (npSign (x j) * d.Ar mc j + npSign (d.bm mc - amx d x mc) * d.Am mc j)

/-- `_tol_calcfg_extend`, `_uni_calcfg_extend`, `_uss_calcfg_extend`, /repo/intvalpy/models/WILS.py:30-82. -/
def wilsCalcfg (F : RecFun) (norm : NormArg) (d : RecData K m n) (x : Fin n → K) :
    Except Err (K × (Fin n → K)) :=
  match wrapNorm norm (wilsResidual F d x) with
  | .error e => .error e
  | .ok r => .ok (-r.1, fun j => -(r.2.map fun mc => wilsDiff F d x mc j).sum)

/-- `calcfg` of `fit`, /repo/intvalpy/models/WILS.py:118-132; `objective` is `none` for an unknown name. -/
def wilsObjective (objective : Option RecFun) (norm : NormArg) (d : RecData K m n) (con : Option (Rows K n × K))
    (x : Fin n → K) : Except Err (K × (Fin n → K)) :=
  match objective with
  | none => .error .exception
  | some F =>
      match con with
      | none => wilsCalcfg F norm d x
      | some c => calcfgConstr (wilsCalcfg F norm d) c.1 c.2 x

/-- The weight vector read from the array. -/
def weightVec (w : List K) (i : Fin m) : K := w.getD i 0

/-- `fit`, /repo/intvalpy/models/WILS.py:85-135, up to the call of the optimiser: the function it is given, and the
weight array afterwards.  `weight` is the array of the caller.  With too many weights the product `weight * (...)` raises
`ValueError` (for a single row numpy would broadcast, which is not modelled), after the name of the objective has been
tested. -/
def wilsProblem (R : Rnd K) (st : K → K) (alpha beta : K) (X : Fin m → Fin n → Iv K) (y : Fin m → Iv K)
    (weight : Option (List K)) (objective : Option RecFun) (norm : NormArg) (con : Option (Rows K n × K)) :
    Except Err (((Fin n → K) → Except Err (K × (Fin n → K))) × List K) :=
  match fitWeights R st alpha beta m weight with
  | .error e => .error e
  | .ok w =>
      if w.length = m then .ok (wilsObjective objective norm (recData X y (weightVec w)) con, w)
      else .ok (fun _ => .error (match objective with | none => .exception | some _ => .valueError), w)

/-- The function where it does not raise. -/
def orZero (r : Except Err (K × (Fin n → K))) : K × (Fin n → K) :=
  match r with
  | .ok v => v
  | .error _ => (0, fun _ => 0)

/-- `fit`, /repo/intvalpy/models/WILS.py:85-143: the estimator (whose `fr` is negated, line 138) and the weight array
afterwards.  An exception of the functional depends on the arguments only, so it is raised by the first evaluation. -/
def wilsFit (R : Rnd K) (st : K → K) (P : RalgPar K n) (big : K) (alpha beta : K) (X : Fin m → Fin n → Iv K)
    (y : Fin m → Iv K) (x0 : Fin n → K) (weight : Option (List K)) (objective : Option RecFun) (norm : NormArg)
    (con : Option (Rows K n × K)) : Except Err (RalgOut K n × List K) :=
  match wilsProblem R st alpha beta X y weight objective norm con with
  | .error e => .error e
  | .ok p =>
      match p.1 x0 with
      | .error e => .error e
      | .ok _ =>
          let o := ralgb5 P big (fun x => orZero (p.1 x)) x0
          .ok ({ o with fr := -o.fr }, p.2)

/-- `predict` for one row, /repo/intvalpy/models/WILS.py:146-147: `X_test @ xr`; without columns there is nothing to
add. -/
def wilsPredict (R : Rnd K) (xr : Fin n → K) (x : Fin n → Iv K) : Option (Iv K) :=
  dotIN R (List.ofFn x) (List.ofFn xr)

/-! ## ISPAE -/

/-- The points at which the polynomial is evaluated: the endpoints and the stationary points inside,
/repo/intvalpy/models/ISPAE.py:105-117. -/
def colPoints (roots : List K) (x : Iv K) : List K := (x.a :: x.b :: roots).filter fun t => x.a ≤ t ∧ t ≤ x.b

/-- `value_of_one_col` for one row, /repo/intvalpy/models/ISPAE.py:72-124: the polynomial `p`, the real parts `roots`
of the roots of its derivative (`numpy`'s root finder is a parameter; evaluation in exact arithmetic).  `min` of no
values, for an improper interval, raises `ValueError`. -/
def colValue (p : K → K) (roots : List K) (x : Iv K) : Except Err (Iv K) :=
  match (colPoints roots x).map p with
  | [] => .error .valueError
  | v :: vs => .ok (mkIv (vs.foldl min v) (vs.foldl max v))

/-- The polynomial `beta @ basis` of one column with the degrees `1, ..., len(beta)`,
/repo/intvalpy/models/ISPAE.py:94-102; `basis d` is the basis polynomial of degree `d`. -/
def colPoly (basis : ℕ → K → K) {N : ℕ} (beta : Fin N → K) (t : K) : K := ∑ d, beta d * basis (d + 1) t

/-- One basis polynomial per coefficient: the coefficients of the columns. -/
abbrev Coeffs (K : Type*) {C : ℕ} (order : Fin C → ℕ) := (c : Fin C) → Fin (order c) → K

/-- The sum of a list of intervals with `sum`, `0 + X1 + X2 + ...`; `none` for an empty list (the integer 0). -/
def ivSum (R : Rnd K) : List (Iv K) → Option (Iv K)
  | [] => none
  | X :: Xs => some (Xs.foldl (Iv.add R) (X.radd R 0))

/-- The columns one after the other, an exception in one of them propagates. -/
def colValues {C : ℕ} (basis : ℕ → K → K) (roots : (K → K) → List K) (order : Fin C → ℕ) (beta : Coeffs K order)
    (x : Fin C → Iv K) : List (Fin C) → Except Err (List (Iv K))
  | [] => .ok []
  | c :: cs =>
      match colValue (colPoly basis (beta c)) (roots (colPoly basis (beta c))) (x c) with
      | .error e => .error e
      | .ok V => (colValues basis roots order beta x cs).map (V :: ·)

/-- `value` for one row, /repo/intvalpy/models/ISPAE.py:127-147; without columns the sum is the integer 0, on which the
callers fail with `AttributeError`. -/
def ispaeValue {C : ℕ} (R : Rnd K) (basis : ℕ → K → K) (roots : (K → K) → List K) (order : Fin C → ℕ)
    (beta : Coeffs K order) (x : Fin C → Iv K) : Except Err (Iv K) :=
  match colValues basis roots order beta x (List.finRange C) with
  | .error e => .error e
  | .ok Vs =>
      match ivSum R Vs with
      | none => .error .attributeError
      | some V => .ok V

/-- One column of the expanded data: the ranges of the basis polynomials of degrees `1, ..., order`,
/repo/intvalpy/models/ISPAE.py:256-261. -/
def expandCol (basis : ℕ → K → K) (roots : (K → K) → List K) (x : Iv K) : List ℕ → Except Err (List (Iv K))
  | [] => .ok []
  | d :: ds =>
      match colValue (fun t => 1 * basis d t) (roots fun t => 1 * basis d t) x with
      | .error e => .error e
      | .ok V => (expandCol basis roots x ds).map (V :: ·)

/-- `_expand_dataframe` for one row, /repo/intvalpy/models/ISPAE.py:242-261. -/
def expandRow {C : ℕ} (basis : ℕ → K → K) (roots : (K → K) → List K) (order : Fin C → ℕ) (x : Fin C → Iv K) :
    List (Fin C) → Except Err (List (Iv K))
  | [] => .ok []
  | c :: cs =>
      match expandCol basis roots (x c) ((List.range (order c)).map (· + 1)) with
      | .error e => .error e
      | .ok V => (expandRow basis roots order x cs).map (V ++ ·)

/-- The coefficients as one vector, in the order of the columns. -/
def flatCoeffs {C : ℕ} (order : Fin C → ℕ) (beta : Coeffs K order) : List K :=
  (List.finRange C).flatMap fun c => List.ofFn (beta c)

/-- `predict` for one row, /repo/intvalpy/models/ISPAE.py:376-393: the expanded row times the coefficients (the object
dot product of pandas). -/
def ispaePredict {C : ℕ} (R : Rnd K) (basis : ℕ → K → K) (roots : (K → K) → List K) (order : Fin C → ℕ)
    (beta : Coeffs K order) (x : Fin C → Iv K) : Except Err (Iv K) :=
  match expandRow basis roots order x (List.finRange C) with
  | .error e => .error e
  | .ok row =>
      match dotIN R row (flatCoeffs order beta) with
      | none => .error .attributeError
      | some V => .ok V

/-! ### The objective of ISPAE -/

/-- `colValue` for an input with `a <= b`, where it does not raise (`colValue_eq`). -/
def rangeOf (p : K → K) (roots : List K) (x : Iv K) : Iv K :=
  let vs := (x.b :: roots.filter fun t => x.a ≤ t ∧ t ≤ x.b).map p
  mkIv (vs.foldl min (p x.a)) (vs.foldl max (p x.a))

/-- The value of the model at one row, as in `ispaeValue`. -/
def ispaeVal {C : ℕ} (basis : ℕ → K → K) (roots : (K → K) → List K) (order : Fin C → ℕ) (beta : Coeffs K order)
    (x : Fin C → Iv K) : Iv K :=
  (ivSum Rnd.exact ((List.finRange C).map fun c =>
    rangeOf (colPoly basis (beta c)) (roots (colPoly basis (beta c))) (x c))).getD ⟨.classical, 0, 0⟩

/-- The expanded data: `infX[i]` and `supX[i]` at the coefficient of degree `d + 1` of column `c` are the endpoints of
this interval. -/
def expanded {C : ℕ} (basis : ℕ → K → K) (roots : (K → K) → List K) (order : Fin C → ℕ) (x : Fin C → Iv K)
    (c : Fin C) (d : Fin (order c)) : Iv K :=
  rangeOf (fun t => 1 * basis (d + 1) t) (roots fun t => 1 * basis (d + 1) t) (x c)

/-- Training data of `fit`. -/
structure IspaeData (K : Type*) (m C : ℕ) where
  order : Fin C → ℕ
  x : Fin m → Fin C → Iv K
  y : Fin m → Iv K
  weight : Fin m → K

/-- `centered_mval`, /repo/intvalpy/models/ISPAE.py:179, 227. -/
def ispaeCentered {C : ℕ} (basis : ℕ → K → K) (roots : (K → K) → List K) (D : IspaeData K m C) (beta : Coeffs K D.order)
    (i : Fin m) : Iv K :=
  Iv.ufuncSub Rnd.exact ((D.y i).mid Rnd.exact) (ispaeVal basis roots D.order beta (D.x i))

/-- `residual`, /repo/intvalpy/models/ISPAE.py:181-185, 229. -/
def ispaeResidual {C : ℕ} (basis : ℕ → K → K) (roots : (K → K) → List K) (uni : Bool) (D : IspaeData K m C)
    (beta : Coeffs K D.order) (i : Fin m) : K :=
  let c := ispaeCentered basis roots D beta i
  D.weight i * ((D.y i).rad Rnd.exact -
    if uni then (if c.a * c.b ≤ 0 then 0 else min |c.a| |c.b|) else max |c.a| |c.b|)

/-- `diff`, /repo/intvalpy/models/ISPAE.py:190-193, 234-237. -/
def ispaeDiff {C : ℕ} (basis : ℕ → K → K) (roots : (K → K) → List K) (uni : Bool) (D : IspaeData K m C)
    (beta : Coeffs K D.order) (i : Fin m) : Coeffs K D.order := fun c d =>
  let e := expanded basis roots D.order (D.x i) c d
  let z := ispaeCentered basis roots D beta i
  if -z.a ≤ z.b then
    D.weight i * (if 0 ≤ beta c d then (if uni then e.b else e.a) else (if uni then e.a else e.b))
  else -D.weight i * (if 0 ≤ beta c d then (if uni then e.a else e.b) else (if uni then e.b else e.a))

/-- `calcfg` of `fit`, /repo/intvalpy/models/ISPAE.py:356-363, with `_tol_calcfg_extend` and `_uni_calcfg_extend`;
`objective` is `some uni` or `none` for another name (`ValueError`).  An improper input raises `ValueError` when the
data are expanded, and without columns the value is a number without endpoints (`AttributeError`). -/
def ispaeCalcfg {C : ℕ} (basis : ℕ → K → K) (roots : (K → K) → List K) (objective : Option Bool) (norm : NormArg)
    (D : IspaeData K m C) (beta : Coeffs K D.order) : Except Err (K × Coeffs K D.order) :=
  if ∃ i c, (D.x i c).b < (D.x i c).a then .error .valueError
  else match objective with
  | none => .error .valueError
  | some uni =>
      if C = 0 then .error .attributeError
      else match wrapNorm norm (ispaeResidual basis roots uni D beta) with
      | .error e => .error e
      | .ok r => .ok (-r.1, fun c d => -(r.2.map fun i => ispaeDiff basis roots uni D beta i c d).sum)

end IntvalPy
