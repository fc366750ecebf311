import Verif.ModelUtils

/-!
# `Interval(...)` of numbers and nested lists on the float level

/repo/intvalpy/kernel/real_intervals.py:370-396, 404-471, with the element types of `np.array` and `np.stack`.
Simplification: numbers are Python `int`s and `float`s (numpy scalars and `ndarray`s are taken as the numbers they
hold), the platform integer has 64 bits.
-/

set_option autoImplicit false

namespace IntvalPy

/-- `SingleInterval(left, right, sortQ, midRadQ)`, /repo/intvalpy/kernel/real_intervals.py:370-396; the radius is
tested with `right >= 0` (false for NaN), the two ends of the midpoint-radius form are computed in the current rounding
mode. -/
def fSingle (m : Mode) (left right : Num) (sortQ midRadQ : Bool) : Except Err FIv :=
  let order := fun (l r : Num) =>
    if sortQ then (if r.lt l then FIv.mk .classical r l else ⟨.classical, l, r⟩)
    else (if l.le r then FIv.mk .classical l r else ⟨.kaucher, l, r⟩)
  if midRadQ then
    if (Num.int 0).le right then
      match Num.sub m left right, Num.add m left right with
      | .error e, _ => .error e
      | _, .error e => .error e
      | .ok l, .ok r => .ok (order l r)
    else .error .assertionError
  else .ok (order left right)

/-- The element types of numpy that occur here. -/
inductive DType
  | i64 | u64 | f64 | obj
  deriving DecidableEq, Repr

/-- The type numpy finds for one Python number: `int64`, `uint64` for integers that only fit there, `object` for
larger ones, `float64`. -/
def Num.dtype : Num → DType
  | .dbl _ => .f64
  | .int z =>
      if -(2 ^ 63) ≤ z ∧ z < 2 ^ 63 then .i64
      else if 2 ^ 63 ≤ z ∧ z < 2 ^ 64 then .u64
      else .obj

/-- `np.promote_types`; note that `int64` and `uint64` promote to `float64`. -/
def DType.promote : DType → DType → DType
  | .obj, _ => .obj
  | _, .obj => .obj
  | .i64, .i64 => .i64
  | .u64, .u64 => .u64
  | _, _ => .f64

/-- Cast of one number to an element type and back to a Python number (`np.vectorize` hands Python numbers to the
function): only the cast of integers to `float64` changes anything; it rounds half to even. -/
def Num.castTo : DType → Num → Num
  | .f64, .int z => .dbl (round .nearest z)
  | _, x => x

/-- An item of an array: a number, or an interval held as an object. -/
abbrev Cell := Num ⊕ Iv Num

/-- The element type of one item. -/
def Cell.dtype : Cell → DType
  | .inl x => x.dtype
  | .inr _ => .obj

/-- The element type `np.array` gives to a list of items; `float64` for none. -/
def dtypeOf : List Cell → DType
  | [] => .f64
  | x :: xs => xs.foldl (fun d y => d.promote y.dtype) x.dtype

/-- Cast of one item. -/
def Cell.castTo (d : DType) : Cell → Cell
  | .inl x => .inl (x.castTo d)
  | .inr y => .inr y

/-- `np.array(x)`: shape, element type and elements in row-major order; `none` for lists without a shape
(`ValueError`).  Used at /repo/intvalpy/kernel/real_intervals.py:456, 468. -/
def npArrayNum (x : Nest Num) : Option (List ℕ × DType × List Cell) :=
  match npAsarray x with
  | none => none
  | some (sh, els) => some (sh, dtypeOf els, els.map (Cell.castTo (dtypeOf els)))

/-- What `Interval` returns: an interval or an array. -/
inductive FIvOrArr
  | iv (x : FIv)
  | arr (shape : List ℕ) (data : List FIv)
  deriving DecidableEq

/-- `SingleInterval` inside `np.vectorize`: the assertions reject items that are not numbers,
/repo/intvalpy/kernel/real_intervals.py:371-372, 471. -/
def cellSingle (m : Mode) (sortQ midRadQ : Bool) : Cell × Cell → Except Err FIv
  | (.inl l, .inl r) => fSingle m l r sortQ midRadQ
  | _ => .error .assertionError

/-- `ArrayInterval(np.vectorize(...)(lefts, rights))` for arrays of the given shape; `np.vectorize` raises `ValueError`
without elements, /repo/intvalpy/kernel/real_intervals.py:471. -/
def buildArr (m : Mode) (sortQ midRadQ : Bool) (shape : List ℕ) (ps : List (Cell × Cell)) : Except Err FIvOrArr :=
  if ps = [] then .error .valueError
  else match ps.mapM (cellSingle m sortQ midRadQ) with
    | .error e => .error e
    | .ok data => .ok (.arr shape data)

/-- The first two entries of each of the `n` rows of length `k`: `data[..., 0], data[..., 1]`. -/
def firstTwo (k : ℕ) : ℕ → List Cell → List (Cell × Cell)
  | 0, _ => []
  | n + 1, x :: y :: d => (x, y) :: firstTwo k n ((x :: y :: d).drop k)
  | _ + 1, _ => []

/-- `Interval(xs, sortQ, midRadQ)` for a list, /repo/intvalpy/kernel/real_intervals.py:459-471: two numbers give a
scalar interval; anything else is converted by `np.array`, whose last axis is read at the positions 0 and 1
(`IndexError` when it is shorter, further positions are not read). -/
def interval1F (m : Mode) (xs : List (Nest Num)) (sortQ midRadQ : Bool) : Except Err FIvOrArr :=
  match xs with
  | [.num l, .num r] => (fSingle m l r sortQ midRadQ).map .iv
  | xs => match npArrayNum (.seq xs) with
      | none => .error .valueError
      | some (sh, _, data) =>
          if sh.getLastD 0 < 2 then .error .indexError
          else buildArr m sortQ midRadQ sh.dropLast
            (firstTwo (sh.getLastD 0) (data.length / sh.getLastD 0) data)

/-- `Interval(x, y, sortQ, midRadQ)`, /repo/intvalpy/kernel/real_intervals.py:453-457, 471: a number as the first
argument needs a number as the second (`AssertionError`); otherwise both are converted by `np.array` and stacked, which
needs equal shapes (`ValueError`) and brings the two element types together. -/
def interval2F (m : Mode) (x y : Nest Num) (sortQ midRadQ : Bool) : Except Err FIvOrArr :=
  match x, y with
  | .num l, .num r => (fSingle m l r sortQ midRadQ).map .iv
  | .num _, _ => .error .assertionError
  | x, y => match npArrayNum x, npArrayNum y with
      | some (s, d, ls), some (t, e, rs) =>
          if s = t then
            buildArr m sortQ midRadQ s ((ls.map (Cell.castTo (d.promote e))).zip (rs.map (Cell.castTo (d.promote e))))
          else .error .valueError
      | _, _ => .error .valueError

end IntvalPy
