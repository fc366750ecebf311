import Verif.ModelBase
import Mathlib.Data.Int.Log
import Mathlib.Algebra.Order.Floor.Ring
import Mathlib.Data.Rat.Floor
import Mathlib.Algebra.Order.Ring.Rat

/-!
# L1: Python numbers, IEEE binary64 and the floating-point rounding mode

The arithmetic that /repo/intvalpy/kernel/interval_arithmetics.pyx actually executes: endpoints are
Python objects (`int` or `float`, /repo/intvalpy/kernel/interval_arithmetics.pyx:68-97), the operators
`+ - * /` are CPython's, and the results are stored in C `double` variables
(/repo/intvalpy/kernel/interval_arithmetics.pyx:18,393).

Environment assumptions made explicit by these definitions:
* C `double` operations are IEEE-754 binary64 operations in the mode set by `fesetround`;
* `int` operations are exact, `int` to `double` conversion (`PyLong_AsDouble`) rounds half to even in every
  mode and raises `OverflowError` out of range;
* `int / int` divides in hardware when both operands are below `2^53` in magnitude and otherwise rounds
  half to even (CPython `long_true_divide`);
* the sign of zero is not represented.
-/

set_option autoImplicit false

namespace IntvalPy

/-! ## Rounding to 53 bits -/

section Round
variable {K : Type*} [Field K] [LinearOrder K] [FloorRing K]

/-- Exponent of the unit in the last place of a binary64 number next to `x`: 53 significant bits,
subnormal spacing `2^-1074` (IEEE-754; /repo/intvalpy/kernel/interval_arithmetics.pyx:18 `double_t`). -/
def ulpExp (x : K) : ℤ := max (-1074) (Int.log 2 |x| - 52)

/-- Unit in the last place. -/
def ulp (x : K) : K := (2 : K) ^ ulpExp x

/-- Rounding towards minus infinity, unbounded exponent range
(`FE_DOWNWARD`, /repo/intvalpy/kernel/interval_arithmetics.pyx:33). -/
def floorTo (x : K) : K := (⌊x / ulp x⌋ : K) * ulp x

/-- Rounding towards plus infinity (`FE_UPWARD`, line 34). -/
def ceilTo (x : K) : K := (⌈x / ulp x⌉ : K) * ulp x

/-- Rounding to nearest, ties to even (`FE_TONEAREST`, line 35). -/
def nearInt (s : K) : ℤ :=
  let f := ⌊s⌋
  if s - f < 1 / 2 then f
  else if 1 / 2 < s - f then f + 1
  else if f % 2 = 0 then f else f + 1

/-- Rounding to nearest, ties to even, unbounded exponent range. -/
def nearTo (x : K) : K := (nearInt (x / ulp x) : K) * ulp x

/-- The largest finite double, `DBL_MAX` (line 13). -/
def maxFin : K := (2 ^ 53 - 1) * 2 ^ 971

end Round

/-! ## Doubles and Python numbers -/

/-- Values of a C `double`; the sign of zero and NaN payloads are not represented. -/
inductive Dbl
  | fin (q : ℚ)
  | pinf
  | ninf
  | nan
  deriving DecidableEq, Repr

/-- A Python number as the library sees it: an exact `int` or a `float`
(/repo/intvalpy/kernel/interval_arithmetics.pyx:68-81). -/
inductive Num
  | int (z : ℤ)
  | dbl (d : Dbl)
  deriving DecidableEq, Repr

/-- The rounding modes of `fenv.h`, lines 30-36. -/
inductive Mode
  | nearest
  | down
  | up
  | zero
  deriving DecidableEq, Repr

/-- Correct rounding of an exact result in a given mode, with IEEE overflow. -/
def round : Mode → ℚ → Dbl
  | .down, x =>
      let r := floorTo x
      if maxFin < r then .fin maxFin else if r < -maxFin then .ninf else .fin r
  | .up, x =>
      let r := ceilTo x
      if maxFin < r then .pinf else if r < -maxFin then .fin (-maxFin) else .fin r
  | .nearest, x =>
      let r := nearTo x
      if maxFin < r then .pinf else if r < -maxFin then .ninf else .fin r
  | .zero, x =>
      if 0 ≤ x then (if maxFin < floorTo x then .fin maxFin else .fin (floorTo x))
      else (if ceilTo x < -maxFin then .fin (-maxFin) else .fin (ceilTo x))

namespace Dbl

/-- Negation, exact. -/
def neg : Dbl → Dbl
  | .fin q => .fin (-q)
  | .pinf => .ninf
  | .ninf => .pinf
  | .nan => .nan

/-- C `double` addition. -/
def add (m : Mode) : Dbl → Dbl → Dbl
  | .fin p, .fin q => round m (p + q)
  | .nan, _ => .nan
  | _, .nan => .nan
  | .pinf, .ninf => .nan
  | .ninf, .pinf => .nan
  | .pinf, _ => .pinf
  | _, .pinf => .pinf
  | .ninf, _ => .ninf
  | _, .ninf => .ninf

/-- C `double` subtraction. -/
def sub (m : Mode) (x y : Dbl) : Dbl := add m x (neg y)

/-- Infinity with the sign of a nonzero finite factor; NaN for zero. -/
def infTimes (q : ℚ) (positiveInf : Bool) : Dbl :=
  if q = 0 then .nan
  else if (0 < q) = (positiveInf = true) then .pinf else .ninf

/-- C `double` multiplication. -/
def mul (m : Mode) : Dbl → Dbl → Dbl
  | .fin p, .fin q => round m (p * q)
  | .nan, _ => .nan
  | _, .nan => .nan
  | .fin p, .pinf => infTimes p true
  | .fin p, .ninf => infTimes p false
  | .pinf, .fin q => infTimes q true
  | .ninf, .fin q => infTimes q false
  | .pinf, .pinf => .pinf
  | .ninf, .ninf => .pinf
  | .pinf, .ninf => .ninf
  | .ninf, .pinf => .ninf

/-- CPython `float / float`: `ZeroDivisionError` for a zero divisor, otherwise C division. -/
def div (m : Mode) (x y : Dbl) : Except Err Dbl :=
  match x, y with
  | .fin p, .fin q => if q = 0 then .error .zeroDivisionError else .ok (round m (p / q))
  | .pinf, .fin q => if q = 0 then .error .zeroDivisionError else .ok (infTimes q true)
  | .ninf, .fin q => if q = 0 then .error .zeroDivisionError else .ok (infTimes q false)
  | .nan, .fin q => if q = 0 then .error .zeroDivisionError else .ok .nan
  | .fin _, .pinf => .ok (.fin 0)
  | .fin _, .ninf => .ok (.fin 0)
  | _, _ => .ok .nan

/-- C comparison `x < y`; false when a NaN is involved. -/
def lt : Dbl → Dbl → Bool
  | .fin p, .fin q => decide (p < q)
  | .nan, _ => false
  | _, .nan => false
  | .ninf, .ninf => false
  | .ninf, _ => true
  | _, .ninf => false
  | .pinf, _ => false
  | _, .pinf => true

/-- C comparison `x <= y`; false when a NaN is involved. -/
def le : Dbl → Dbl → Bool
  | .fin p, .fin q => decide (p ≤ q)
  | .nan, _ => false
  | _, .nan => false
  | .ninf, _ => true
  | _, .pinf => true
  | _, .ninf => false
  | .pinf, _ => false

end Dbl

namespace Num

/-- The value of a Python number for comparisons: Python compares `int` with `float` exactly. -/
def val : Num → Dbl
  | .int z => .fin z
  | .dbl d => d

/-- Conversion to a C `double` (`PyFloat_AsDouble` / `PyLong_AsDouble`): half-to-even whatever the mode,
`OverflowError` when out of range.  Applied when a result is stored in a `cdef double` variable
(/repo/intvalpy/kernel/interval_arithmetics.pyx:393 and similar). -/
def toDbl : Num → Except Err Dbl
  | .dbl d => .ok d
  | .int z => match round .nearest z with
      | .fin q => .ok (.fin q)
      | _ => .error .overflowError

/-- Binary operator on mixed operands: both converted to `double`. -/
def viaDbl (f : Dbl → Dbl → Except Err Dbl) (x y : Num) : Except Err Num := do
  let p ← x.toDbl
  let q ← y.toDbl
  return .dbl (← f p q)

/-- Python `x + y` in the current mode. -/
def add (m : Mode) : Num → Num → Except Err Num
  | .int z, .int w => .ok (.int (z + w))
  | x, y => viaDbl (fun p q => .ok (Dbl.add m p q)) x y

/-- Python `x - y`. -/
def sub (m : Mode) : Num → Num → Except Err Num
  | .int z, .int w => .ok (.int (z - w))
  | x, y => viaDbl (fun p q => .ok (Dbl.sub m p q)) x y

/-- Python `x * y`. -/
def mul (m : Mode) : Num → Num → Except Err Num
  | .int z, .int w => .ok (.int (z * w))
  | x, y => viaDbl (fun p q => .ok (Dbl.mul m p q)) x y

/-- Python `x / y`. -/
def div (m : Mode) : Num → Num → Except Err Num
  | .int z, .int w =>
      if w = 0 then .error .zeroDivisionError
      else if |z| < 2 ^ 53 ∧ |w| < 2 ^ 53 then .ok (.dbl (round m ((z : ℚ) / w)))
      else match round .nearest ((z : ℚ) / w) with
        | .fin q => .ok (.dbl (.fin q))
        | _ => .error .overflowError
  | x, y => viaDbl (Dbl.div m) x y

/-- Python `-x`. -/
def neg : Num → Num
  | .int z => .int (-z)
  | .dbl d => .dbl d.neg

/-- Python `x < y`. -/
def lt (x y : Num) : Bool := Dbl.lt x.val y.val
/-- Python `x <= y`. -/
def le (x y : Num) : Bool := Dbl.le x.val y.val

/-- Python/Cython `min(x, y, ...)`: an argument replaces the current value only if it is less. -/
def min2 (x y : Num) : Num := if y.lt x then y else x
/-- Python/Cython `max(x, y, ...)`: an argument replaces the current value only if it is greater. -/
def max2 (x y : Num) : Num := if x.lt y then y else x

end Num

/-! ## Computations with a rounding mode -/

/-- A computation that may read and change the process rounding mode and may raise. -/
def M (α : Type) := Mode → Except Err α × Mode

namespace M

instance : Monad M where
  pure x := fun s => (.ok x, s)
  bind x f := fun s => match x s with
    | (.ok a, s') => f a s'
    | (.error e, s') => (.error e, s')

/-- `raise`. -/
def raise {α : Type} (e : Err) : M α := fun s => (.error e, s)

/-- A primitive that only reads the mode. -/
def op {α : Type} (f : Mode → Except Err α) : M α := fun s => (f s, s)

/-- `fegetround()`, line 31. -/
def fegetround : M Mode := fun s => (.ok s, s)

/-- `fesetround(mode)`, line 32. -/
def fesetround (mode : Mode) : M Unit := fun _ => (.ok (), mode)

/-- Run `cleanup` after `body` whether the body returned or raised (the `with` statement calls
`__exit__` in both cases); the outcome of the body is kept, `__exit__` returns `None` so exceptions
propagate. -/
def finally_ {α : Type} (body : M α) (cleanup : M Unit) : M α := fun s =>
  match body s with
  | (r, s') => (r, (cleanup s').2)

/-- `with RoundingContext(mode): body`, /repo/intvalpy/kernel/interval_arithmetics.pyx:38-50:
`__enter__` saves `fegetround()` and sets the new mode, `__exit__` sets the saved mode. -/
def withRounding {α : Type} (mode : Mode) (body : M α) : M α := do
  let old ← fegetround
  fesetround mode
  finally_ body (fesetround old)

end M

/-! ## Interval operations -/

/-- An interval object at L1, /repo/intvalpy/kernel/interval_arithmetics.pyx:62-97. -/
structure FIv where
  cls : Cls
  a : Num
  b : Num
  deriving DecidableEq, Repr

namespace FIv
open M

/-- Arithmetic primitives in the current mode. -/
def nadd (x y : Num) : M Num := op fun m => Num.add m x y
/-- See `nadd`. -/
def nsub (x y : Num) : M Num := op fun m => Num.sub m x y
/-- See `nadd`. -/
def nmul (x y : Num) : M Num := op fun m => Num.mul m x y
/-- See `nadd`. -/
def ndiv (x y : Num) : M Num := op fun m => Num.div m x y
/-- Store into a `cdef double` variable. -/
def store (x : M Num) : M Num := do
  let v ← x
  op fun _ => v.toDbl.map .dbl

/-- `number in X`, lines 199-201. -/
def containsNum (x : FIv) (c : Num) : Bool := x.a.le c && c.le x.b

/-- `__add__`, lines 392-399 and 530-537. -/
def add (x y : FIv) : M FIv := do
  let inf ← withRounding .down (store (nadd x.a y.a))
  let sup ← withRounding .up (store (nadd x.b y.b))
  return ⟨match x.cls with | .classical => y.cls | .kaucher => .kaucher, inf, sup⟩

/-- `__sub__`, lines 403-410 and 541-548. -/
def sub (x y : FIv) : M FIv := do
  let inf ← withRounding .down (store (nsub x.a y.b))
  let sup ← withRounding .up (store (nsub x.b y.a))
  return ⟨match x.cls with | .classical => y.cls | .kaucher => .kaucher, inf, sup⟩

/-- `min(p, q, r, s)` of four computed numbers (all evaluated first), lines 420, 452. -/
def min4 (p q r s : M Num) : M Num := do
  let p ← p; let q ← q; let r ← r; let s ← s
  return ((p.min2 q).min2 r).min2 s

/-- `max(p, q, r, s)`, lines 422, 454. -/
def max4 (p q r s : M Num) : M Num := do
  let p ← p; let q ← q; let r ← r; let s ← s
  return ((p.max2 q).max2 r).max2 s

/-- `max(t, 0.0)` stored in a double, lines 427-434. -/
def plus (t : Num) : M Num := store (pure (t.max2 (.dbl (.fin 0))))

/-- The eight parts `selfInfPlus, selfInfMinus, selfSupPlus, selfSupMinus` and the same of `other`,
computed in the ambient mode, lines 427-435, 558-566, 592-600, 668-677. -/
structure Parts where
  ip : Num
  im : Num
  sp : Num
  sm : Num

/-- Parts of one operand. -/
def parts (a b : Num) : M Parts := do
  let ip ← plus a
  let sp ← plus b
  let im ← store (nsub ip a)
  let sm ← store (nsub sp b)
  return ⟨ip, im, sp, sm⟩

/-- `p1*q1 + p2*q2 - p3*q3 - p4*q4`, lines 437-440, 602-605, 679-682. -/
def sumForm (p1 q1 p2 q2 p3 q3 p4 q4 : Num) : M Num := do
  let t1 ← nmul p1 q1
  let t2 ← nmul p2 q2
  let s ← nadd t1 t2
  let t3 ← nmul p3 q3
  let s ← nsub s t3
  let t4 ← nmul p4 q4
  nsub s t4

/-- `max(p1*q1, p2*q2) - max(p3*q3, p4*q4)`, lines 568-571. -/
def maxForm (p1 q1 p2 q2 p3 q3 p4 q4 : Num) : M Num := do
  let t1 ← nmul p1 q1
  let t2 ← nmul p2 q2
  let t3 ← nmul p3 q3
  let t4 ← nmul p4 q4
  nsub (t1.max2 t2) (t3.max2 t4)

/-- The Kaucher product with a given combination. -/
def mulForm (f : Num → Num → Num → Num → Num → Num → Num → Num → M Num) (x y : FIv) : M FIv := do
  let p ← parts x.a x.b
  let q ← parts y.a y.b
  let inf ← withRounding .down (store (f p.ip q.ip p.sm q.sm p.sp q.im p.im q.sp))
  let sup ← withRounding .up (store (f p.sp q.sp p.im q.im p.ip q.sm p.sm q.ip))
  return ⟨.kaucher, inf, sup⟩

/-- `__mul__` with an interval, lines 414-441 and 552-572. -/
def mul (x y : FIv) : M FIv :=
  match x.cls, y.cls with
  | .classical, .classical => do
    let inf ← withRounding .down (store (min4 (nmul x.a y.a) (nmul x.a y.b) (nmul x.b y.a) (nmul x.b y.b)))
    let sup ← withRounding .up (store (max4 (nmul x.a y.a) (nmul x.a y.b) (nmul x.b y.a) (nmul x.b y.b)))
    return ⟨.classical, inf, sup⟩
  | .classical, .kaucher => mulForm sumForm x y
  | .kaucher, _ => mulForm maxForm x y

/-- The outward reciprocal, lines 460-463, 586-589, 611-614, 522-525, 691-694. -/
def recip (c : Cls) (y : FIv) : M FIv := do
  let inf ← withRounding .down (store (ndiv (.dbl (.fin 1)) y.b))
  let sup ← withRounding .up (store (ndiv (.dbl (.fin 1)) y.a))
  return ⟨c, inf, sup⟩

/-- `__truediv__` with an interval, lines 446-464 and 577-615. -/
def div (x y : FIv) : M FIv :=
  if y.containsNum (.dbl (.fin 0)) then raise .valueError
  else match x.cls, y.cls with
  | .classical, .classical => do
    let inf ← withRounding .down (store (min4 (ndiv x.a y.a) (ndiv x.a y.b) (ndiv x.b y.a) (ndiv x.b y.b)))
    let sup ← withRounding .up (store (max4 (ndiv x.a y.a) (ndiv x.a y.b) (ndiv x.b y.a) (ndiv x.b y.b)))
    return ⟨.classical, inf, sup⟩
  | .classical, .kaucher => do let r ← recip .kaucher y; mul x r
  | .kaucher, .classical => do let r ← recip .classical y; mulForm sumForm x r
  | .kaucher, .kaucher => do let r ← recip .kaucher y; mul x r

/-- `__radd__` with a number, lines 484-491, 641-648. -/
def radd (c : Num) (x : FIv) : M FIv := do
  let inf ← withRounding .down (store (nadd x.a c))
  let sup ← withRounding .up (store (nadd x.b c))
  return ⟨x.cls, inf, sup⟩

/-- `__rsub__` with a number, lines 496-503, 652-659. -/
def rsub (c : Num) (x : FIv) : M FIv := do
  let inf ← withRounding .down (store (nsub c x.b))
  let sup ← withRounding .up (store (nsub c x.a))
  return ⟨x.cls, inf, sup⟩

/-- `__rmul__` with a number, lines 507-514 and 663-683. -/
def rmul (c : Num) (x : FIv) : M FIv :=
  match x.cls with
  | .classical => do
    let inf ← withRounding .down (store (do
      let p ← nmul c x.a; let q ← nmul c x.b; return p.min2 q))
    let sup ← withRounding .up (store (do
      let p ← nmul c x.a; let q ← nmul c x.b; return p.max2 q))
    return ⟨.classical, inf, sup⟩
  | .kaucher => mulForm sumForm x ⟨.kaucher, c, c⟩

/-- `__rtruediv__` with a number, lines 518-526 and 687-695. -/
def rdiv (c : Num) (x : FIv) : M FIv :=
  if x.containsNum (.dbl (.fin 0)) then raise .valueError
  else do let r ← recip x.cls x; rmul c r

/-- `X - number`: `-other + self`, lines 411-412, 549-550. -/
def subNum (x : FIv) (c : Num) : M FIv := radd c.neg x

/-- `X / number`: `1.0/other * self` (classical, line 467) and `1/other * self` (Kaucher, line 618); the
reciprocal is computed in the ambient mode. -/
def divNum (x : FIv) (c : Num) : M FIv := do
  let r ← ndiv (match x.cls with | .classical => .dbl (.fin 1) | .kaucher => .int 1) c
  rmul r x

/-- `inv`, lines 170-180. -/
def inv (x : FIv) : M FIv := do
  let inf ← withRounding .down (store (ndiv (.dbl (.fin 1)) x.a))
  let sup ← withRounding .up (store (ndiv (.dbl (.fin 1)) x.b))
  return ⟨if x.b.le x.a then .classical else .kaucher, inf, sup⟩

/-- `__array_ufunc__` for `np.float64(c) / X`, lines 365-370 (`1/self.b` with an integer one). -/
def ufuncDiv (c : Num) (x : FIv) : M FIv := do
  let inf ← withRounding .down (store (ndiv (.int 1) x.b))
  let sup ← withRounding .up (store (ndiv (.int 1) x.a))
  rmul c ⟨x.cls, inf, sup⟩

/-- `__array_ufunc__` for `np.float64(c) - X`, lines 359-360. -/
def ufuncSub (c : Num) (x : FIv) : M FIv := radd c ⟨x.cls, x.b.neg, x.a.neg⟩

/-- `__pow__` with a natural exponent, classical branch, lines 469-478.  `x ** n` of numbers is a
parameter (exact for `int`, libm `pow` for `float`); it may raise (`OverflowError`). -/
def powC (pw : Mode → Num → ℕ → Except Err Num) (x : FIv) (n : ℕ) : M FIv := do
  let inf ← withRounding .down (do
    let p ← op fun m => pw m x.a n
    let q ← op fun m => pw m x.b n
    return p.min2 q)
  let sup ← withRounding .up (do
    let p ← op fun m => pw m x.a n
    let q ← op fun m => pw m x.b n
    return p.max2 q)
  if n % 2 = 0 ∧ x.containsNum (.int 0) then return ⟨.classical, .dbl (.fin 0), sup⟩
  else return ⟨.classical, inf, sup⟩

/-- `self.pro.a`: the end itself for the classical class, `min(self.a, self.b)` for the Kaucher class, lines 157-161. -/
def proLo (x : FIv) : Num := match x.cls with
  | .classical => x.a
  | .kaucher => x.a.min2 x.b

/-- `self.pro.b`, lines 157-161. -/
def proHi (x : FIv) : Num := match x.cls with
  | .classical => x.b
  | .kaucher => x.a.max2 x.b

/-- `__pow__` with a natural exponent, Kaucher branch, lines 620-634.  The endpoints are raised separately
and stored in doubles. -/
def powK (pw : Mode → Num → ℕ → Except Err Num) (x : FIv) (n : ℕ) : M FIv := do
  let inf ← withRounding .down (store (op fun m => pw m x.a n))
  let sup ← withRounding .up (store (op fun m => pw m x.b n))
  if n % 2 = 0 ∧ x.containsNum (.int 0) then return ⟨.classical, .dbl (.fin 0), inf.max2 sup⟩
  else if n % 2 = 0 ∧ (FIv.mk .classical x.proLo x.proHi).containsNum (.int 0) then
    return ⟨.kaucher, inf.max2 sup, .dbl (.fin 0)⟩
  else if sup.lt inf then return ⟨.kaucher, inf, sup⟩
  else return ⟨.classical, inf, sup⟩

/-- `log`, lines 267-285.  `lg` is libm `log` (may raise `ValueError`); `NEGINF` and `NAN` are the constants
of lines 14-16. -/
def log (lg : Mode → Num → Except Err Num) (x : FIv) : M FIv :=
  let hi := x.proHi
  let mx := x.proLo.max2 (.dbl (.fin 0))
  let atom (t : Num) : M Num := store (if t.val = .fin 0 then pure (.dbl .ninf) else op fun m => lg m t)
  if mx.le hi then
    if x.a.le x.b then do
      let inf ← withRounding .down (atom mx)
      let sup ← withRounding .up (atom hi)
      return ⟨x.cls, inf, sup⟩
    else do
      let sup ← withRounding .down (atom hi)
      let inf ← withRounding .up (atom mx)
      return ⟨x.cls, sup, inf⟩
  else return ⟨x.cls, .dbl .nan, .dbl .nan⟩

end FIv
end IntvalPy
