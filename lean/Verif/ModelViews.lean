import Verif.ModelRecFun
import Verif.ModelLinear
import Verif.ModelBoundary
import Verif.ModelArray
import Verif.ModelObjects
import Verif.ModelUtils
import Verif.ModelModels

/-!
# Functions that read the endpoints of an array through `A.a`, `A.b`

The exact models `vertex`, `distVec`, `subset`, `rohnTol`, `orthantRows` read the stored endpoints.  The code reads
the views `A.a`, `A.b` (/repo/intvalpy/kernel/real_intervals.py:27-41), which are cast to the type of the first
endpoint (`arrA`, `arrB`, C63).  The functions here are the same computations on the views.
Simplification: finite endpoints, and exact arithmetic after the view is taken.
-/

set_option autoImplicit false

namespace IntvalPy

variable {m n : ℕ}

/-- `x.a`, `x.b` of a one-dimensional array as a list of pairs,
/repo/intvalpy/kernel/real_intervals.py:27-41.  The class is not read afterwards. -/
def viewVec (X : List FIv) : Except Err (List (Iv ℚ)) :=
  match arrA X with
  | .error e => .error e
  | .ok la =>
      match arrB X with
      | .error e => .error e
      | .ok lb => .ok (List.zipWith (fun p q => ⟨.classical, numRat p, numRat q⟩) la lb)

/-- `A.a`, `A.b` of a two-dimensional array as a matrix of pairs,
/repo/intvalpy/kernel/real_intervals.py:27-41. -/
def viewMatIv (A : Fin m → Fin n → FIv) : Except Err (Fin m → Fin n → Iv ℚ) :=
  match arrA (rowMajor A) with
  | .error e => .error e
  | .ok la =>
      match arrB (rowMajor A) with
      | .error e => .error e
      | .ok lb => .ok fun i j => ⟨.classical, viewMat la i j, viewMat lb i j⟩

/-- `b.a`, `b.b` of a vector indexed by `Fin m`, /repo/intvalpy/kernel/real_intervals.py:27-41. -/
def viewFin (b : Fin m → FIv) : Except Err (Fin m → Iv ℚ) :=
  match arrA (List.ofFn b) with
  | .error e => .error e
  | .ok la =>
      match arrB (List.ofFn b) with
      | .error e => .error e
      | .ok lb => .ok fun i => ⟨.classical, numRat (la.getD i (.int 0)), numRat (lb.getD i (.int 0))⟩

/-- `X.vertex` of a one-dimensional interval array, /repo/intvalpy/kernel/real_intervals.py:102-113, 127
(`inf, sup = self.a, self.b` at line 103). -/
def vertexF (X : List FIv) : Except Err (List (List ℚ)) :=
  match viewVec X with
  | .error e => .error e
  | .ok v => vertex v

/-- `dist(x, y)` of two interval vectors of the same length, /repo/intvalpy/kernel/utils.py:33-37 (`x.a`, `y.a`,
`x.b`, `y.b` at line 34). -/
def distVecF (x y : List FIv) : Except Err ℚ :=
  match viewVec x with
  | .error e => .error e
  | .ok u =>
      match viewVec y with
      | .error e => .error e
      | .ok v => distVec u v

/-- `subset(a, b)`, `proper_subset(a, b)`, `contain(a, b)` of interval vectors of the same length as a function of the
test `rel` on the views, /repo/intvalpy/kernel/utils.py:194-201. -/
def inclF {α : Type} (rel : List (Iv ℚ) → List (Iv ℚ) → α) (a b : List FIv) : Except Err α :=
  match viewVec a with
  | .error e => .error e
  | .ok u =>
      match viewVec b with
      | .error e => .error e
      | .ok v => .ok (rel u v)

/-- `_Rohn_Tol(A, b, nu)`, /repo/intvalpy/linear/Rohn.py:23-61 (`A.a`, `A.b`, `b.a`, `b.b` at lines 27-35); `tolval` is
the value found by `Tol.maximize`, tested before the views are read. -/
def rohnTolF (lp : LpSolver ℚ (Fin m ⊕ Fin m ⊕ (Fin n ⊕ Fin n)) (Fin n ⊕ Fin n)) (tolval : ℚ)
    (A : Fin m → Fin n → FIv) (b : Fin m → FIv) (nu : Option (Fin n)) : Except Err (List (Iv ℚ)) :=
  if tolval < 0 then .error .exception
  else
    match viewMatIv A with
    | .error e => .error e
    | .ok A' =>
        match viewFin b with
        | .error e => .error e
        | .ok b' => rohnTol lp tolval A' b' nu

/-- `tmp`: the columns of negative sign are replaced by their duals,
/repo/intvalpy/linear/boundary_intervals.py:305-311 and 610-616;
`dual` swaps the endpoints (/repo/intvalpy/kernel/interval_arithmetics.pyx:149-154).
Simplification: the class of the dual, which is not read afterwards, is kept. -/
def orthDualF (A : Fin m → Fin n → FIv) (ort : Fin n → Bool) (i : Fin m) (k : Fin n) : FIv :=
  if ort k then A i k else ⟨(A i k).cls, (A i k).b, (A i k).a⟩

/-- The system of one orthant from the endpoints of `tmp` and `b`,
/repo/intvalpy/linear/boundary_intervals.py:312-324 and 617-627, 635 (see `orthantRows`). -/
def orthantSystem (shift : ℚ → ℚ) (t : Fin m → Fin n → Iv ℚ) (b : Fin m → Iv ℚ) (ort : Fin n → Bool)
    (cons : Consistency) : Except Err (List (Ineq ℚ n)) :=
  let signs : List (Ineq ℚ n) := List.ofFn fun k =>
    ((fun j => if j = k then (if ort k then 1 else -1) else 0), 0)
  match cons with
  | .uni => .ok (
      (List.ofFn fun i => ((fun k => -(t i k).a, -shift (b i).b) : Ineq ℚ n)) ++
      (List.ofFn fun i => ((fun k => -(-(t i k).b), -shift (-(b i).a)) : Ineq ℚ n)) ++ signs)
  | .tol => .ok (
      (List.ofFn fun i => ((fun k => -(-(t i k).a), -shift (-(b i).a)) : Ineq ℚ n)) ++
      (List.ofFn fun i => ((fun k => -(t i k).b, -shift (b i).b) : Ineq ℚ n)) ++ signs)
  | .other => .error .exception

/-- The system of one orthant built from the views `tmp.a`, `tmp.b`, `b.a`, `b.b`,
/repo/intvalpy/linear/boundary_intervals.py:305-324 and 610-627, 635. -/
def orthantRowsF (shift : ℚ → ℚ) (A : Fin m → Fin n → FIv) (b : Fin m → FIv) (ort : Fin n → Bool)
    (cons : Consistency) : Except Err (List (Ineq ℚ n)) :=
  match cons with
  | .other => .error .exception
  | _ =>
    match viewMatIv (orthDualF A ort) with
    | .error e => .error e
    | .ok t =>
        match viewFin b with
        | .error e => .error e
        | .ok b' => orthantSystem shift t b' ort cons

/-- `IPlot.scatter(x, y)` of one-dimensional interval arrays, /repo/intvalpy/kernel/visualization.py:35-57 (`x.a`, `x.b`,
`y.a`, `y.b` at lines 35-46). -/
def scatterF (x y : List FIv) : Except Err (List (Mark ℚ)) :=
  match viewVec x with
  | .error e => .error e
  | .ok u =>
      match viewVec y with
      | .error e => .error e
      | .ok v => scatter u v

/-- The function `WILS.fit` minimises for the objective `Tol`, with the views `inf(X_train)`, `sup(X_train)` in the
subgradient, /repo/intvalpy/models/WILS.py:64-82, 88-90 (the same reads as in `optimize`, `optimizeData`). -/
def wilsTolF (A : Fin m → Fin n → FIv) (b : Fin m → FIv) (w : Fin m → ℚ) (norm : NormArg) (x : Fin n → ℚ) :
    Except Err (ℚ × (Fin n → ℚ)) :=
  match optimizeData A b w with
  | .error e => .error e
  | .ok d => wilsCalcfg .tol norm d x

end IntvalPy
