import Verif.ModelSysProp
import Mathlib.Analysis.SpecialFunctions.Pow.Real

/-!
# `dist` with a finite order

/repo/intvalpy/kernel/utils.py:14-41, in exact arithmetic over the reals.
-/

set_option autoImplicit false

namespace IntvalPy

/-- The argument `order`: `infinity`, a Python `int` (`bool` included) or anything else (for example a float or
a numpy integer). -/
inductive DistOrder
  | infinity
  | int (z : ℤ)
  | other
  deriving DecidableEq

/-- `dist(x, y, order)` of two interval vectors (or arrays, in row-major order) of the same size,
/repo/intvalpy/kernel/utils.py:33-41.  `ints` tells whether the endpoint views of both operands have an integer
type (C63): then numpy refuses a negative power.  For floats `0.0 ** order` is `inf` when the order is negative, and
`pow(inf, 1/order)` is `0.0`. -/
noncomputable def distOrd (ints : Bool) (order : DistOrder) {n : ℕ} (x y : Fin n → Iv ℝ) : Except Err ℝ :=
  match order with
  | .infinity => distVec (List.ofFn x) (List.ofFn y)
  | .int z =>
      if n = 0 then .error .valueError            -- the endpoint views of an empty array
      else if z < 0 ∧ ints then .error .valueError
      else if z = 0 then .error .zeroDivisionError
      else if z < 0 ∧ ∃ i, cheb (x i) (y i) = 0 then .ok 0
      else .ok ((∑ i, cheb (x i) (y i) ^ z) ^ (1 / (z : ℝ)))
  | .other =>.error .exception

end IntvalPy
