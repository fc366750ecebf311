import Verif.ModelBase
import Mathlib.Algebra.Order.Group.Abs

/-!
# L2 model of `kernel/interval_arithmetics.pyx`

Branch-by-branch translation of the scalar interval classes.  All line numbers refer to
/repo/intvalpy/kernel/interval_arithmetics.pyx.
-/

set_option autoImplicit false

namespace IntvalPy
namespace Iv

variable {K : Type*} [Field K] [LinearOrder K]

/-! ## `BaseTools` -/

/-- `copy(deep=True)`, lines 115-119. -/
def copy (x : Iv K) : Iv K := ⟨x.cls, x.a, x.b⟩

/-- `wid`, lines 121-124; the subtraction is rounded to nearest. -/
def wid (R : Rnd K) (x : Iv K) : K := R.nr (x.b - x.a)

/-- `rad`, lines 126-129. -/
def rad (R : Rnd K) (x : Iv K) : K := R.nr (1 / 2 * x.wid R)

/-- `mid`, lines 131-134. -/
def mid (R : Rnd K) (x : Iv K) : K := R.nr (1 / 2 * R.nr (x.b + x.a))

/-- `number in X`, lines 199-201. -/
def containsNum (x : Iv K) (c : K) : Bool := x.a ≤ c && c ≤ x.b

/-- `Y in X` for an interval `Y`, lines 202-203. -/
def containsIv (x y : Iv K) : Bool := x.a ≤ y.a && y.b ≤ x.b

/-- `mig`, lines 136-142. -/
def mig (x : Iv K) : K := if x.containsNum 0 then 0 else min |x.a| |x.b|

/-- `mag`, lines 144-147. -/
def mag (x : Iv K) : K := max |x.a| |x.b|

/-- `dual`, lines 149-154. -/
def dual (x : Iv K) : Iv K :=
  if x.b ≤ x.a then ⟨.classical, x.b, x.a⟩ else ⟨.kaucher, x.b, x.a⟩

/-- `pro`, lines 156-161. -/
def pro (x : Iv K) : Iv K :=
  match x.cls with
  | .classical => ⟨.classical, x.a, x.b⟩
  | .kaucher => ⟨.classical, min x.a x.b, max x.a x.b⟩

/-- `opp`, lines 163-168. -/
def opp (x : Iv K) : Iv K :=
  if x.b ≤ x.a then ⟨.classical, -x.a, -x.b⟩ else ⟨.kaucher, -x.a, -x.b⟩

/-- `inv`, lines 170-180.  `1.0/self.a` raises `ZeroDivisionError` for a zero endpoint. -/
def inv (R : Rnd K) (x : Iv K) : Except Err (Iv K) :=
  if x.a = 0 then .error .zeroDivisionError
  else if x.b = 0 then .error .zeroDivisionError
  else if x.b ≤ x.a then .ok ⟨.classical, R.dn (1 / x.a), R.up (1 / x.b)⟩
  else .ok ⟨.kaucher, R.dn (1 / x.a), R.up (1 / x.b)⟩

/-- `khi` (Ratschek's functional), lines 182-187. -/
def khi (R : Rnd K) (x : Iv K) : Except Err K :=
  if |x.a| ≤ |x.b| then
    if x.b = 0 then .error .zeroDivisionError else .ok (R.nr (x.a / x.b))
  else
    if x.a = 0 then .error .zeroDivisionError else .ok (R.nr (x.b / x.a))

/-- `__neg__`, lines 193-194. -/
def neg (x : Iv K) : Iv K := ⟨x.cls, -x.b, -x.a⟩

/-- `__abs__`, lines 196-197. -/
def abs (x : Iv K) : Iv K := ⟨x.cls, x.mig, x.mag⟩

/-- The right operand of a comparison: a number, an interval, or an unsupported object,
lines 207-253. -/
inductive CmpArg (K : Type*)
  | num (c : K)
  | iv (y : Iv K)
  | other

/-- Common shape of `__lt__ __le__ __eq__ __gt__ __ge__`: both endpoints are compared with the number,
or endpoint with endpoint, and the results joined with `and`; other operands raise `TypeError`,
lines 207-229, 239-253. -/
def cmpAnd (r : K → K → Bool) (x : Iv K) : CmpArg K → Except Err Bool
  | .num c => .ok (r x.a c && r x.b c)
  | .iv y => .ok (r x.a y.a && r x.b y.b)
  | .other => .error .typeError

/-- `__lt__`, lines 207-213. -/
def lt (x : Iv K) (y : CmpArg K) : Except Err Bool := cmpAnd (fun p q => decide (p < q)) x y
/-- `__le__`, lines 215-221. -/
def le (x : Iv K) (y : CmpArg K) : Except Err Bool := cmpAnd (fun p q => decide (p ≤ q)) x y
/-- `__eq__`, lines 223-229. -/
def eq (x : Iv K) (y : CmpArg K) : Except Err Bool := cmpAnd (fun p q => decide (p = q)) x y
/-- `__gt__`, lines 239-245. -/
def gt (x : Iv K) (y : CmpArg K) : Except Err Bool := cmpAnd (fun p q => decide (q < p)) x y
/-- `__ge__`, lines 247-253. -/
def ge (x : Iv K) (y : CmpArg K) : Except Err Bool := cmpAnd (fun p q => decide (q ≤ p)) x y

/-- `__ne__`, lines 231-237 (joined with `or`). -/
def ne (x : Iv K) : CmpArg K → Except Err Bool
  | .num c => .ok (decide (x.a ≠ c) || decide (x.b ≠ c))
  | .iv y => .ok (decide (x.a ≠ y.a) || decide (x.b ≠ y.b))
  | .other => .error .typeError

/-! ## Binary operations -/

/-- `ClassicalArithmetic.__add__` (lines 392-399, result has the class of the right operand) and
`KaucherArithmetic.__add__` (lines 530-537, result is Kaucher). -/
def add (R : Rnd K) (x y : Iv K) : Iv K :=
  match x.cls with
  | .classical => ⟨y.cls, R.dn (x.a + y.a), R.up (x.b + y.b)⟩
  | .kaucher => ⟨.kaucher, R.dn (x.a + y.a), R.up (x.b + y.b)⟩

/-- `__sub__`, lines 403-410 and 541-548. -/
def sub (R : Rnd K) (x y : Iv K) : Iv K :=
  match x.cls with
  | .classical => ⟨y.cls, R.dn (x.a - y.b), R.up (x.b - y.a)⟩
  | .kaucher => ⟨.kaucher, R.dn (x.a - y.b), R.up (x.b - y.a)⟩

/-- `selfInfPlus = max(self.a, 0.0)` and the like, lines 427-435. -/
def plus (t : K) : K := max t 0

/-- `selfInfMinus = selfInfPlus - self.a` and the like, lines 429-435.  The subtraction is exact in
floating point (its result is `0` or `-t`). -/
def minus (t : K) : K := plus t - t

/-- The product of two `ClassicalArithmetic` objects, lines 419-424. -/
def mulCC (R : Rnd K) (x y : Iv K) : Iv K :=
  ⟨.classical,
    min (min (min (R.dn (x.a * y.a)) (R.dn (x.a * y.b))) (R.dn (x.b * y.a))) (R.dn (x.b * y.b)),
    max (max (max (R.up (x.a * y.a)) (R.up (x.a * y.b))) (R.up (x.b * y.a))) (R.up (x.b * y.b))⟩

/-- `p1 + p2 - p3 - p4` where every operation is rounded by `r`; the products are rounded by the same
`r` because the whole expression is evaluated under one rounding mode, lines 438, 440, 603, 605,
680, 682. -/
def sumForm (r : K → K) (p1 p2 p3 p4 : K) : K := r (r (r (r p1 + r p2) - r p3) - r p4)

/-- `max(p1, p2) - max(p3, p4)` under one rounding mode, lines 569, 571. -/
def maxForm (r : K → K) (p1 p2 p3 p4 : K) : K := r (max (r p1) (r p2) - max (r p3) (r p4))

/-- Lower endpoint formula shared by the Kaucher products (lines 437-438, 568-569, 602-603), with the
combination of the four partial products as a parameter. -/
def kInf (f : K → K → K → K → K) (x y : Iv K) : K :=
  f (plus x.a * plus y.a) (minus x.b * minus y.b) (plus x.b * minus y.a) (minus x.a * plus y.b)

/-- Upper endpoint formula shared by the Kaucher products (lines 439-440, 570-571, 604-605). -/
def kSup (f : K → K → K → K → K) (x y : Iv K) : K :=
  f (plus x.b * plus y.b) (minus x.a * minus y.a) (plus x.a * minus y.b) (minus x.b * plus y.a)

/-- `ClassicalArithmetic * KaucherArithmetic`, lines 426-441: sums instead of maxima. -/
def mulSum (R : Rnd K) (x y : Iv K) : Iv K :=
  ⟨.kaucher, kInf (sumForm R.dn) x y, kSup (sumForm R.up) x y⟩

/-- `KaucherArithmetic * (either class)`, lines 552-572. -/
def mulMax (R : Rnd K) (x y : Iv K) : Iv K :=
  ⟨.kaucher, kInf (maxForm R.dn) x y, kSup (maxForm R.up) x y⟩

/-- `__mul__` with an interval, lines 414-441 and 552-572. -/
def mul (R : Rnd K) (x y : Iv K) : Iv K :=
  match x.cls, y.cls with
  | .classical, .classical => mulCC R x y
  | .classical, .kaucher => mulSum R x y
  | .kaucher, _ => mulMax R x y

/-- The outward reciprocal `(1.0/b rounded down, 1.0/a rounded up)` built by the division branches,
lines 460-464, 586-590, 611-615, 522-526, 691-695, in the class given.  Python raises
`ZeroDivisionError` for a zero endpoint; the order of evaluation is `1.0/b` first. -/
def recip (R : Rnd K) (c : Cls) (y : Iv K) : Except Err (Iv K) :=
  if y.b = 0 then .error .zeroDivisionError
  else if y.a = 0 then .error .zeroDivisionError
  else .ok ⟨c, R.dn (1 / y.b), R.up (1 / y.a)⟩

/-- Four rounded quotients of two `ClassicalArithmetic` objects, lines 451-455. -/
def divCC (R : Rnd K) (x y : Iv K) : Iv K :=
  ⟨.classical,
    min (min (min (R.dn (x.a / y.a)) (R.dn (x.a / y.b))) (R.dn (x.b / y.a))) (R.dn (x.b / y.b)),
    max (max (max (R.up (x.a / y.a)) (R.up (x.a / y.b))) (R.up (x.b / y.a))) (R.up (x.b / y.b))⟩

/-- `__truediv__` with an interval, lines 446-464 and 577-615.
In the classical/classical branch a zero endpoint without `0.0 in other` can only occur for an
ill-formed divisor (`a > b`); Python then raises `ZeroDivisionError`. -/
def div (R : Rnd K) (x y : Iv K) : Except Err (Iv K) :=
  if y.containsNum 0 then .error .valueError
  else match x.cls, y.cls with
    | .classical, .classical =>
        if y.a = 0 then .error .zeroDivisionError
        else if y.b = 0 then .error .zeroDivisionError
        else .ok (divCC R x y)
    | .classical, .kaucher => (recip R .kaucher y).map (mul R x)
    | .kaucher, .classical => (recip R .classical y).map (mulSum R x)
    | .kaucher, .kaucher => (recip R .kaucher y).map (mul R x)

/-- `__radd__` with a number, lines 484-491 and 641-648. -/
def radd (R : Rnd K) (c : K) (x : Iv K) : Iv K := ⟨x.cls, R.dn (x.a + c), R.up (x.b + c)⟩

/-- `__rsub__` with a number, lines 496-503 and 652-659. -/
def rsub (R : Rnd K) (c : K) (x : Iv K) : Iv K := ⟨x.cls, R.dn (c - x.b), R.up (c - x.a)⟩

/-- `__rmul__` with a number, lines 507-514 (classical) and 663-683 (Kaucher: the sum form with the
number in the role of both endpoints of the other factor). -/
def rmul (R : Rnd K) (c : K) (x : Iv K) : Iv K :=
  match x.cls with
  | .classical =>
      ⟨.classical, min (R.dn (c * x.a)) (R.dn (c * x.b)), max (R.up (c * x.a)) (R.up (c * x.b))⟩
  | .kaucher => mulSum R x ⟨.kaucher, c, c⟩

/-- `__rtruediv__` with a number, lines 518-526 and 687-695. -/
def rdiv (R : Rnd K) (c : K) (x : Iv K) : Except Err (Iv K) :=
  if x.containsNum 0 then .error .valueError
  else (recip R x.cls x).map (rmul R c)

/-- `X + number`: `other + self`, lines 400-401, 538-539. -/
def addNum (R : Rnd K) (x : Iv K) (c : K) : Iv K := radd R c x

/-- `X - number`: `-other + self`, lines 411-412, 549-550. -/
def subNum (R : Rnd K) (x : Iv K) (c : K) : Iv K := radd R (-c) x

/-- `X * number`: `other * self`, lines 443-444, 574-575. -/
def mulNum (R : Rnd K) (x : Iv K) (c : K) : Iv K := rmul R c x

/-- `X / number`: `1.0/other * self`, lines 466-467, 617-618.  The reciprocal is computed outside any
rounding context, i.e. rounded to nearest. -/
def divNum (R : Rnd K) (x : Iv K) (c : K) : Except Err (Iv K) :=
  if c = 0 then .error .zeroDivisionError else .ok (rmul R (R.nr (1 / c)) x)

/-- `__array_ufunc__` for `np.float64(c) / X`, lines 365-370: no test for zero in the interval.
`1/self.b` with Python operands raises `ZeroDivisionError` for a zero endpoint. -/
def ufuncDiv (R : Rnd K) (c : K) (x : Iv K) : Except Err (Iv K) :=
  (recip R x.cls x).map (rmul R c)

/-- `__array_ufunc__` for `np.float64(c) - X`, lines 359-360. -/
def ufuncSub (R : Rnd K) (c : K) (x : Iv K) : Iv K := radd R c (neg x)

/-- `__pow__` with a natural exponent, lines 469-478 (classical) and 620-635 (Kaucher).
Simplification: `float ** int` is the exact power rounded in the active mode (libm `pow` assumed
directed). -/
def powNat (R : Rnd K) (x : Iv K) (n : ℕ) : Iv K :=
  match x.cls with
  | .classical =>
      let inf := min (R.dn (x.a ^ n)) (R.dn (x.b ^ n))
      let sup := max (R.up (x.a ^ n)) (R.up (x.b ^ n))
      if n % 2 = 0 ∧ x.containsNum 0 then ⟨.classical, 0, sup⟩ else ⟨.classical, inf, sup⟩
  | .kaucher =>
      let inf := R.dn (x.a ^ n)
      let sup := R.up (x.b ^ n)
      if n % 2 = 0 ∧ x.containsNum 0 then ⟨.classical, 0, max inf sup⟩
      else if n % 2 = 0 ∧ x.pro.containsNum 0 then ⟨.kaucher, max inf sup, 0⟩
      else if sup < inf then ⟨.kaucher, inf, sup⟩
      else ⟨.classical, inf, sup⟩

end Iv
end IntvalPy
