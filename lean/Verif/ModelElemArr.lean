import Verif.ModelUtils
import Verif.ModelElem
import Verif.ModelObjects

/-!
# The functions `sqrt`, `exp`, `log`, `sin`, `cos` and `sign` on numbers, intervals, arrays and nested lists

`/repo/intvalpy/kernel/elementary_functions.py`.  The argument is passed through `asinterval`; for an interval array the
function of one interval is mapped over the elements with `np.vectorize`.
-/

set_option autoImplicit false

namespace IntvalPy

variable {K : Type*} [Field K] [LinearOrder K] [IsStrictOrderedRing K]

/-- What these functions return: the value for one interval, or an array of the given shape. -/
inductive OneOrArr (β : Type*)
  | one (y : β)
  | arr (shape : List ℕ) (data : List β)
  deriving DecidableEq

/-- `np.vectorize(f)(data)` with no `otypes`, as used in /repo/intvalpy/kernel/real_intervals.py:342-355 and
/repo/intvalpy/kernel/elementary_functions.py:124: an array without elements is refused with `ValueError` ("cannot call
`vectorize` on size 0 inputs"), otherwise the elements are processed in row-major order and the first exception
propagates. -/
def npVectorize {α β : Type*} (f : α → Except Err β) (sh : List ℕ) (data : List α) : Except Err (OneOrArr β) :=
  if data = [] then .error .valueError
  else match data.mapM f with
    | .ok out => .ok (.arr sh out)
    | .error e => .error e

/-- `sqrt`, `exp`, `log`, `sin`, `cos` (/repo/intvalpy/kernel/elementary_functions.py:7-99, with the dispatch in
`ArrayInterval.__array_ufunc__`, /repo/intvalpy/kernel/real_intervals.py:342-355) and `sign`
(/repo/intvalpy/kernel/elementary_functions.py:102-124), where `f` is the function of one interval. -/
def elemNest {β : Type*} (R : Rnd K) (f : Iv K → Except Err β) (x : Nest K) : Except Err (OneOrArr β) :=
  match asintervalNest R x with
  | .error e => .error e
  | .ok (.iv X) => match f X with
      | .ok y => .ok (.one y)
      | .error e => .error e
  | .ok (.arr sh data) => npVectorize f sh data

/-- The interval object with float endpoints. -/
def Iv.toFIv (X : Iv ℚ) : FIv := ⟨X.cls, .dbl (.fin X.a), .dbl (.fin X.b)⟩

/-- `sin(x)`, /repo/intvalpy/kernel/elementary_functions.py:64-80. The rounding mode is `s` at every call because each
call restores it (C07). -/
def sinNest (R : Rnd ℚ) (lm : Libm) (s : Mode) (x : Nest ℚ) : Except Err (OneOrArr FIv) :=
  elemNest R (fun X => (FIv.sin lm X.toFIv s).1) x

/-- `cos(x)`, /repo/intvalpy/kernel/elementary_functions.py:83-99. -/
def cosNest (R : Rnd ℚ) (lm : Libm) (s : Mode) (x : Nest ℚ) : Except Err (OneOrArr FIv) :=
  elemNest R (fun X => (FIv.cos lm X.toFIv s).1) x

/-- `exp(x)`, /repo/intvalpy/kernel/elementary_functions.py:26-42. -/
def expNest (R : Rnd ℚ) (lm : Libm) (s : Mode) (x : Nest ℚ) : Except Err (OneOrArr FIv) :=
  elemNest R (fun X => (FIv.exp lm X.toFIv s).1) x

/-- `log(x)`, /repo/intvalpy/kernel/elementary_functions.py:45-61. -/
def logNest (R : Rnd ℚ) (lm : Libm) (s : Mode) (x : Nest ℚ) : Except Err (OneOrArr FIv) :=
  elemNest R (fun X => (FIv.log lm.log X.toFIv s).1) x

/-- `sqrt(x)`, /repo/intvalpy/kernel/elementary_functions.py:7-23. -/
def sqrtNest (R : Rnd ℚ) (lm : Libm) (s : Mode) (x : Nest ℚ) : Except Err (OneOrArr FIv) :=
  elemNest R (fun X => (FIv.sqrt lm X.toFIv s).1) x

/-- `sign(x)`, /repo/intvalpy/kernel/elementary_functions.py:102-124. -/
def signNest (R : Rnd K) (x : Nest K) : Except Err (OneOrArr (Iv K)) :=
  elemNest R (fun X => .ok (signIv X)) x

end IntvalPy
