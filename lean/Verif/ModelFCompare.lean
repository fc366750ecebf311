import Verif.ModelFloat
import Verif.ModelCompare

/-!
# Binary64 model of the comparison methods

Endpoints are Python numbers (integers or doubles, infinities and NaN included).  Simplification: complex numbers, which are
`Number`s too, are not modelled.
-/

set_option autoImplicit false

namespace IntvalPy

/-- C comparison `x == y`; false when a NaN is involved. -/
def Dbl.eqv : Dbl → Dbl → Bool
  | .fin p, .fin q => decide (p = q)
  | .ninf, .ninf => true
  | .pinf, .pinf => true
  | _, _ => false

/-- Python `x == y`; `int` and `float` are compared exactly. -/
def Num.eqv (x y : Num) : Bool := Dbl.eqv x.val y.val

/-- The other operand of a comparison: a number, an interval, anything else. -/
inductive FCmpArg
  | num (c : Num)
  | iv (X : FIv)
  | other

/-- The pattern shared by the comparison methods: `number`, `interval`, other types,
/repo/intvalpy/kernel/interval_arithmetics.pyx:207-253. -/
def FIv.cmpBy (f : Num → Num → Bool) (join : Bool → Bool → Bool) (x : FIv) : FCmpArg → Except Err Bool
  | .num c => .ok (join (f x.a c) (f x.b c))
  | .iv y => .ok (join (f x.a y.a) (f x.b y.b))
  | .other => .error .typeError

/-- `__lt__`, `__le__`, `__eq__`, `__ne__`, `__gt__`, `__ge__`, /repo/intvalpy/kernel/interval_arithmetics.pyx:207-253.
Python's `x > y` on numbers is `y < x`, also for NaN. -/
def FIv.cmp : CmpOp → FIv → FCmpArg → Except Err Bool
  | .lt => FIv.cmpBy Num.lt and
  | .le => FIv.cmpBy Num.le and
  | .eq => FIv.cmpBy Num.eqv and
  | .ne => FIv.cmpBy (fun p q => !Num.eqv p q) or
  | .gt => FIv.cmpBy (fun p q => Num.lt q p) and
  | .ge => FIv.cmpBy (fun p q => Num.le q p) and

/-- `__contains__`, /repo/intvalpy/kernel/interval_arithmetics.pyx:199-205: the exception built for other types is not
raised, so that the method returns `None` and `in` gives `False`. -/
def FIv.contains (x : FIv) : FCmpArg → Bool
  | .num c => x.a.le c && c.le x.b
  | .iv y => x.a.le y.a && y.b.le x.b
  | .other => false

end IntvalPy
