import Verif.ModelConstruct
import Verif.ModelObjects

/-!
# `intersection` of two intervals on the float level

/repo/intvalpy/kernel/preprocessing.py:111-143.
-/

set_option autoImplicit false

namespace IntvalPy

/-- The inner function `intersect`, /repo/intvalpy/kernel/preprocessing.py:127-133: endpoints are kept as the objects they
are, the difference is computed in the current rounding mode, `nan` is `np.nan` and `Interval` sorts its arguments
(/repo/intvalpy/kernel/real_intervals.py:387-391). -/
def FIv.intersect (x y : FIv) : M FIv := do
  let sup := if x.a.lt y.a then y.a else x.a
  let inf := if x.b.lt y.b then x.b else y.b
  let d ← FIv.nsub sup inf
  if d.le (.dbl (.fin interTol)) then M.op fun m => fSingle m sup inf true false
  else M.op fun m => fSingle m (.dbl .nan) (.dbl .nan) true false

/-- Operands of `intersection` that are not arrays: an interval, a number. -/
inductive FInterArg
  | num (c : Num)
  | iv (x : FIv)

/-- `intersection(x, y)` without arrays, /repo/intvalpy/kernel/preprocessing.py:142-143: a number has no attribute `a`. -/
def fIntersection : FInterArg → FInterArg → M FIv
  | .iv x, .iv y => x.intersect y
  | _, _ => M.raise .attributeError

end IntvalPy
