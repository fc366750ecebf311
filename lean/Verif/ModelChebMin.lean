import Verif.ModelRecFun
import Verif.ModelArray

/-!
# ChebNorm with the element type of `A_opt`, and ChebNorm.minimize

/repo/intvalpy/linear/ChebNorm.py:37, 43-46, 63-80.  `A_opt = np.zeros_like(infA)` is an integer array when `infA` is
one; the assignment `A_opt[j] = x_min` then truncates the entries.
-/

set_option autoImplicit false

namespace IntvalPy

variable {K : Type*} [Field K] [LinearOrder K] {m n : ℕ}

/-- The row stored in `A_opt`, /repo/intvalpy/linear/ChebNorm.py:37, 43-46; `st` is the cast to the element type of
`A_opt`: the identity for doubles, truncation for integers. -/
def chebRowSt (st : K → K) (lp : (Fin n → K) → (Fin n → K) → (Fin n → K) → Fin n → K) (x lo hi : Fin n → K) (bm : K) :
    Fin n → K := fun j => st (chebRow lp x lo hi bm j)

/-- The array whose maximum is taken, /repo/intvalpy/linear/ChebNorm.py:20-21, 54-56. -/
def chebArrSt (st : K → K) (lp : (Fin n → K) → (Fin n → K) → (Fin n → K) → Fin n → K) (d : RecData K m n)
    (x : Fin n → K) (i : Fin m) : K :=
  d.weight i * (d.br i + |d.bm i - dotF (chebRowSt st lp x (d.infA i) (d.supA i) (d.bm i)) x|)

/-- `ChebNorm.value`, /repo/intvalpy/linear/ChebNorm.py:15-26. -/
def chebValueSt (st : K → K) (lp : (Fin n → K) → (Fin n → K) → (Fin n → K) → Fin n → K) (d : RecData K m n)
    (x : Fin n → K) : Except Err K := npAmax (List.ofFn (chebArrSt st lp d x))

/-- `ChebNorm.calcfg`, /repo/intvalpy/linear/ChebNorm.py:49-59. -/
def chebCalcfgSt (st : K → K) (lp : (Fin n → K) → (Fin n → K) → (Fin n → K) → Fin n → K) (d : RecData K m n)
    (x : Fin n → K) : Except Err (K × (Fin n → K)) :=
  match npArgmax (chebArrSt st lp d x) with
  | .error e => .error e
  | .ok i =>
      let row := chebRowSt st lp x (d.infA i) (d.supA i) (d.bm i)
      .ok (chebArrSt st lp d x i, fun j => row j * npSign (dotF row x - d.bm i))

/-- The objective chosen by `optimize`, /repo/intvalpy/kernel/abstract.py:50-57 with
/repo/intvalpy/linear/ChebNorm.py:49-67. -/
def chebObjective (st : K → K) (lp : (Fin n → K) → (Fin n → K) → (Fin n → K) → Fin n → K) (d : RecData K m n)
    (con : Option (Rows K n × K)) (x : Fin n → K) : Except Err (K × (Fin n → K)) :=
  match con with
  | none => chebCalcfgSt st lp d x
  | some c => calcfgConstr (chebCalcfgSt st lp d) c.1 c.2 x

/-- The objective where it does not raise. -/
def chebObjTotal (st : K → K) (lp : (Fin n → K) → (Fin n → K) → (Fin n → K) → Fin n → K) (d : RecData K m n)
    (con : Option (Rows K n × K)) (x : Fin n → K) : K × (Fin n → K) :=
  match chebObjective st lp d con x with
  | .ok r => r
  | .error _ => (0, fun _ => 0)

/-- `ChebNorm.minimize`, /repo/intvalpy/linear/ChebNorm.py:70-80, /repo/intvalpy/kernel/abstract.py:34-74.  Unlike
`maximize` it does not change the sign of the value.  `x0` is the given or the default starting point.  An exception of
the objective depends on the shape of the system only, so it is raised by the first evaluation. -/
def chebMinimize (st : K → K) (lp : (Fin n → K) → (Fin n → K) → (Fin n → K) → Fin n → K) (P : RalgPar K n) (big : K)
    (d : RecData K m n) (con : Option (Rows K n × K)) (x0 : Fin n → K) : Except Err (RalgOut K n) :=
  match chebObjective st lp d con x0 with
  | .error e => .error e
  | .ok _ => .ok (ralgb5 P big (chebObjTotal st lp d con) x0)

/-- The cast made by an assignment to `np.zeros_like(infA)`, /repo/intvalpy/linear/ChebNorm.py:37, 43-46; `l` is the
view `infA`, whose elements are of one type (`npVectorizeNum`).  Simplification: an object array (first endpoint outside
the range of `int64`) does not cast. -/
def viewCast : List Num → ℚ → ℚ
  | .int z :: _ => if -(2 ^ 63) ≤ z ∧ z < 2 ^ 63 then fun q => (truncQ q : ℚ) else id
  | _ => id

/-- `ChebNorm.value` of interval objects, with the casts of the endpoint views and of `A_opt`,
/repo/intvalpy/linear/ChebNorm.py:15-26, 36-46. -/
def chebValueF (lp : (Fin n → ℚ) → (Fin n → ℚ) → (Fin n → ℚ) → Fin n → ℚ) (A : Fin m → Fin n → FIv)
    (b : Fin m → FIv) (w : Fin m → ℚ) (x : Fin n → ℚ) : Except Err ℚ :=
  match arrA (rowMajor A), arrB (rowMajor A) with
  | .ok la, .ok lb => chebValueSt (viewCast la) lp
      ((recData (fun i j => ivRat (A i j)) (fun i => ivRat (b i)) w).withViews (viewMat la) (viewMat lb)) x
  | .error e, _ => .error e
  | _, .error e => .error e

/-- `ChebNorm.minimize` of interval objects, with the same casts (`inf(A)` is `A.a`),
/repo/intvalpy/linear/ChebNorm.py:70-80, /repo/intvalpy/kernel/abstract.py:41-74. -/
def chebMinimizeF (lp : (Fin n → ℚ) → (Fin n → ℚ) → (Fin n → ℚ) → Fin n → ℚ) (P : RalgPar ℚ n) (big : ℚ)
    (A : Fin m → Fin n → FIv) (b : Fin m → FIv) (w : Fin m → ℚ) (con : Option (Rows ℚ n × ℚ)) (x0 : Fin n → ℚ) :
    Except Err (RalgOut ℚ n) :=
  match arrA (rowMajor A), arrB (rowMajor A) with
  | .ok la, .ok lb => chebMinimize (viewCast la) lp P big
      ((recData (fun i j => ivRat (A i j)) (fun i => ivRat (b i)) w).withViews (viewMat la) (viewMat lb)) con x0
  | .error e, _ => .error e
  | _, .error e => .error e

end IntvalPy
