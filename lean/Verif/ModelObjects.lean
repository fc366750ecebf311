import Verif.ModelKernel

/-!
# Constructors, containment, intersection, distance

/repo/intvalpy/kernel/real_intervals.py, /repo/intvalpy/kernel/preprocessing.py,
/repo/intvalpy/kernel/utils.py, /repo/intvalpy/kernel/elementary_functions.py.
One-dimensional interval arrays are lists of intervals here.
-/

set_option autoImplicit false

namespace IntvalPy

variable {K : Type*} [Field K] [LinearOrder K]

/-! ## Constructors -/

/-- `SingleInterval` for two numbers, /repo/intvalpy/kernel/real_intervals.py:370-396.
`left - right` and `left + right` of the midpoint-radius form are rounded to nearest. -/
def singleInterval (R : Rnd K) (left right : K) (sortQ midRadQ : Bool) : Except Err (Iv K) :=
  if midRadQ && decide (right < 0) then .error .assertionError
  else
    let l := if midRadQ then R.nr (left - right) else left
    let r := if midRadQ then R.nr (left + right) else right
    if sortQ then
      if r < l then .ok ⟨.classical, r, l⟩ else .ok ⟨.classical, l, r⟩
    else
      if l ≤ r then .ok ⟨.classical, l, r⟩ else .ok ⟨.kaucher, l, r⟩

/-- What a user may pass to `Interval`: a number, an interval, an interval array, or a sequence. -/
inductive PyArg (K : Type*)
  | num (c : K)
  | iv (x : Iv K)
  | arr (xs : List (Iv K))
  | seq (xs : List (PyArg K))

/-- What `Interval` returns: one interval, a one-dimensional array, or an array without axes. -/
inductive PyIv (K : Type*)
  | single (x : Iv K)
  | array (xs : List (Iv K))
  | zeroDim (x : Iv K)

/-- `len(arg)`, raising `TypeError` for a number and for a scalar interval (neither defines
`__len__`), used at /repo/intvalpy/kernel/real_intervals.py:462. -/
def pyLen : PyArg K → Except Err ℕ
  | .num _ => .error .typeError
  | .iv _ => .error .typeError
  | .arr xs => .ok xs.length
  | .seq xs => .ok xs.length

/-- The items of a list when all of them are numbers or scalar intervals: `np.array` gives an array with one axis. -/
def pyFlat : List (PyArg K) → Option (List (K ⊕ Iv K))
  | [] => some []
  | .num c :: xs => (pyFlat xs).map (.inl c :: ·)
  | .iv x :: xs => (pyFlat xs).map (.inr x :: ·)
  | _ :: _ => none

/-- The rows of a list when all its items are lists of numbers or scalar intervals: `np.array` gives an array with two
axes when they are equally long. -/
def pyRows : List (PyArg K) → Option (List (List (K ⊕ Iv K)))
  | [] => some []
  | .seq r :: xs => match pyFlat r, pyRows xs with
      | some r, some rs => some (r :: rs)
      | _, _ => none
  | _ :: _ => none

/-- `SingleInterval` of the first two entries along the last axis; further entries are not looked at, `data[..., 1]`
raises `IndexError` when there are fewer, and the assertions on `Number` reject intervals,
/repo/intvalpy/kernel/real_intervals.py:370-372, 471. -/
def pyEnds (R : Rnd K) (sortQ midRadQ : Bool) : List (K ⊕ Iv K) → Except Err (Iv K)
  | .inl l :: .inl r :: _ => singleInterval R l r sortQ midRadQ
  | _ :: _ :: _ => .error .assertionError
  | _ => .error .indexError

/-- `Interval(x, sortQ, midRadQ)` with one argument, branch by branch,
/repo/intvalpy/kernel/real_intervals.py:459-471: a list of numbers of any other length than two becomes an array
without axes, a list of rows an array with one axis; lists of different length are rejected by `np.array`
(`ValueError`).  Simplified: no deeper nesting (see `interval1F` in `ModelConstruct` for lists of numbers of any
depth). -/
def interval1 (R : Rnd K) (arg : PyArg K) (sortQ midRadQ : Bool) : Except Err (PyIv K) :=
  match arg with
  | .iv x => .ok (.single x)
  | .arr xs => .ok (.array xs)
  | arg =>
    match pyLen arg, arg with
    | .error e, _ => .error e
    | .ok 2, .seq [.num l, .num r] => (singleInterval R l r sortQ midRadQ).map .single
    | .ok _, .num c => (singleInterval R c c sortQ midRadQ).map .single
    | .ok _, .seq xs =>
        match pyFlat xs, pyRows xs with
        | some els, _ => (pyEnds R sortQ midRadQ els).map .zeroDim
        | none, some rows =>
            if rows.all (fun r => r.length = (rows.headD []).length) then
              (rows.mapM (pyEnds R sortQ midRadQ)).map .array
            else .error .valueError
        | none, none => .error .valueError
    | .ok _, _ => .error .typeError

/-- `Interval(l, r, sortQ, midRadQ)` with two numbers,
/repo/intvalpy/kernel/real_intervals.py:453-455. -/
def interval2 (R : Rnd K) (l r : K) (sortQ midRadQ : Bool) : Except Err (Iv K) :=
  singleInterval R l r sortQ midRadQ

/-- `Interval(left, right)` with two equally long lists of numbers: `np.stack` then elementwise,
/repo/intvalpy/kernel/real_intervals.py:456-457,471 (`np.stack` raises `ValueError` for different
lengths, `np.vectorize` for empty ones). -/
def intervalVec (R : Rnd K) (left right : List K) (sortQ midRadQ : Bool) :
    Except Err (List (Iv K)) :=
  if left.length = right.length then
    if left = [] then .error .valueError
    else (left.zip right).mapM fun p => singleInterval R p.1 p.2 sortQ midRadQ
  else .error .valueError

/-! ## Containment in arrays -/

/-- The loop of `ArrayInterval.__contains__` over the components of a 1-D array with a vector operand:
returns the first `True`, else the last answer; `contain` is unbound for an empty array,
/repo/intvalpy/kernel/real_intervals.py:161-166. -/
def arrContainsLoop : List (Iv K × K) → Option Bool → Except Err Bool
  | [], some c => .ok c
  | [], none => .error .unboundLocalError
  | (X, y) :: rest, _ => if X.containsNum y then .ok true else arrContainsLoop rest (some false)

/-- `y in Y` for a vector of numbers `y` and a 1-D interval array `Y` of the same length,
/repo/intvalpy/kernel/real_intervals.py:155-166. -/
def arrContains (Y : List (Iv K)) (y : List K) : Except Err Bool :=
  if y.length < Y.length then
    -- `other[index]` raises `IndexError` unless an earlier component answered `True`
    match arrContainsLoop (Y.zip y) (some false) with
    | .ok true => .ok true
    | _ => .error .indexError
  else arrContainsLoop (Y.zip y) none

/-! ## intersection -/

/-- The constant `1e-15` of /repo/intvalpy/kernel/preprocessing.py:130: the value of the double with that name, which is
slightly more than `1 / 10 ^ 15`. -/
def interTol : K := 2535301200456459 / 2 ^ 101

/-- The inner function `intersect`, /repo/intvalpy/kernel/preprocessing.py:127-133.
`none` stands for the NaN interval. -/
def intersect (R : Rnd K) (x y : Iv K) : Option (Iv K) :=
  let sup := if x.a < y.a then y.a else x.a
  let inf := if x.b < y.b then x.b else y.b
  if R.nr (sup - inf) ≤ interTol then
    if inf < sup then some ⟨.classical, inf, sup⟩ else some ⟨.classical, sup, inf⟩
  else none

/-- Operands of `intersection`. -/
inductive InterArg (K : Type*)
  | num (c : K)
  | iv (x : Iv K)
  | arr (xs : List (Iv K))

/-- Results of `intersection`. -/
inductive InterRes (K : Type*)
  | single (x : Option (Iv K))
  | array (xs : List (Option (Iv K)))

/-- `intersection`, /repo/intvalpy/kernel/preprocessing.py:111-143: the final `else` calls
`intersect(x, y)` on whatever is left, so a plain number raises `AttributeError` (no attribute `a`). -/
def intersection (R : Rnd K) : InterArg K → InterArg K → Except Err (InterRes K)
  | .arr xs, .arr ys =>
      if xs.length = ys.length then .ok (.array (List.zipWith (intersect R) xs ys))
      else .error .assertionError
  | .iv x, .arr ys => .ok (.array (ys.map (intersect R x)))
  | .arr xs, .iv y => .ok (.array (xs.map fun x => intersect R x y))
  | .iv x, .iv y => .ok (.single (intersect R x y))
  | _, _ => .error .attributeError

/-! ## dist -/

/-- The inner function `cheb` of `dist`, /repo/intvalpy/kernel/utils.py:33-34 (exact arithmetic). -/
def cheb (x y : Iv K) : K := max |x.a - y.a| |x.b - y.b|

/-- `np.amax` of a flat array; raises `ValueError` when empty.  Used at
/repo/intvalpy/kernel/utils.py:37. -/
def npAmax : List K → Except Err K
  | [] => .error .valueError
  | x :: xs => .ok (xs.foldl max x)

/-- `dist(x, y)` of two scalar intervals with the default order, /repo/intvalpy/kernel/utils.py:36-37. -/
def dist (x y : Iv K) : K := cheb x y

/-- `dist(x, y)` of two interval vectors of the same length, /repo/intvalpy/kernel/utils.py:36-37. -/
def distVec (x y : List (Iv K)) : Except Err K := npAmax (List.zipWith cheb x y)

/-! ## sign and inclusion helpers -/

/-- `_sign`, /repo/intvalpy/kernel/elementary_functions.py:104-116. -/
def signIv (x : Iv K) : Iv K :=
  if x.b < 0 then ⟨.classical, -1, -1⟩
  else if x.a < 0 ∧ x.b = 0 then ⟨.classical, -1, 0⟩
  else if x.a < 0 ∧ 0 < x.b then ⟨.classical, -1, 1⟩
  else if x.a = 0 ∧ x.b = 0 then ⟨.classical, 0, 0⟩
  else if x.a = 0 ∧ 0 < x.b then ⟨.classical, 0, 1⟩
  else ⟨.classical, 1, 1⟩

/-- `subset(a, b)`: `.all()` over the components, /repo/intvalpy/kernel/utils.py:194. -/
def subset (a b : List (Iv K)) : Bool :=
  (List.zipWith (fun x y => decide (y.a ≤ x.a) && decide (x.b ≤ y.b)) a b).all id

/-- `superset`, /repo/intvalpy/kernel/utils.py:195. -/
def superset (a b : List (Iv K)) : Bool := subset b a

/-- `proper_subset`, /repo/intvalpy/kernel/utils.py:197. -/
def properSubset (a b : List (Iv K)) : Bool :=
  (List.zipWith (fun x y => decide (y.a < x.a) && decide (x.b < y.b)) a b).all id

/-- `proper_superset`, /repo/intvalpy/kernel/utils.py:198. -/
def properSuperset (a b : List (Iv K)) : Bool := properSubset b a

/-- `contain(a, b)`: the componentwise array, /repo/intvalpy/kernel/utils.py:200. -/
def contain (a b : List (Iv K)) : List Bool :=
  List.zipWith (fun x y => decide (y.a ≤ x.a) && decide (x.b ≤ y.b)) a b

/-- What `supercontain` returns: a single truth value, not an array,
/repo/intvalpy/kernel/utils.py:201. -/
def supercontain (a b : List (Iv K)) : Bool := subset b a

/-- `utils.wid` of a plain number returns `float(x)`, /repo/intvalpy/kernel/utils.py:89-101. -/
def utilsWid (R : Rnd K) : Iv.CmpArg K → Except Err K
  | .num c => .ok c
  | .iv x => .ok (x.wid R)
  | .other => .error .typeError

/-- `utils.rad` of a plain number returns `0.0`, /repo/intvalpy/kernel/utils.py:119-131. -/
def utilsRad (R : Rnd K) : Iv.CmpArg K → Except Err K
  | .num _ => .ok 0
  | .iv x => .ok (x.rad R)
  | .other => .ok 0

end IntvalPy
