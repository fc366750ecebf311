import Verif.ModelFloat

/-!
# L1: elementary functions

/repo/intvalpy/kernel/interval_arithmetics.pyx:255-351 (`sqrt`, `exp`, `log`, `sin`, `cos` of `BaseTools`) and the
real exponent branch of `__pow__` (lines 479-482).  `FIv.log` is in `ModelFloat`.
The functions of the Python module `math` are parameters; what is assumed about them is written out in
`SpecElem`.
-/

set_option autoImplicit false

namespace IntvalPy

/-- `math.exp`, `math.log`, `math.sin`, `math.cos` in a rounding mode: they return a float or raise
(`OverflowError` for a finite argument whose exponential is too large, `ValueError` outside the domain),
/repo/intvalpy/kernel/interval_arithmetics.pyx:261-262, 274-282, 291, 324. -/
structure Libm where
  exp : Mode → Num → Except Err Num
  log : Mode → Num → Except Err Num
  sin : Mode → Num → Except Err Num
  cos : Mode → Num → Except Err Num

/-- Half of the smallest positive double: shifting a double by it and rounding gives the neighbour. -/
def tinyQ : ℚ := 2 ^ (-1075 : ℤ)

/-- `round_down(x) = nextafter(x, -DBL_MAX)`, /repo/intvalpy/kernel/interval_arithmetics.pyx:53-54: the next double
below, except that `-DBL_MAX` stays where it is and `-inf` moves up to `-DBL_MAX`. -/
def nextDown : Dbl → Dbl
  | .fin q => if q ≤ -maxFin then .fin (-maxFin) else .fin (floorTo (q - tinyQ))
  | .pinf => .fin maxFin
  | .ninf => .fin (-maxFin)
  | .nan => .nan

/-- `round_up(x) = nextafter(x, DBL_MAX)`, /repo/intvalpy/kernel/interval_arithmetics.pyx:57-58. -/
def nextUp : Dbl → Dbl
  | .fin q => if maxFin ≤ q then .fin maxFin else .fin (ceilTo (q + tinyQ))
  | .pinf => .fin maxFin
  | .ninf => .fin (-maxFin)
  | .nan => .nan

/-- The C constant `PI = 3.14159265358979323846` as a double,
/repo/intvalpy/kernel/interval_arithmetics.pyx:22. -/
def piD : ℚ := 884279719003555 / 2 ^ 48

namespace FIv
open M

/-- A Python number passed to a function with a C `double` parameter. -/
def toD (x : Except Err Num) : Except Err Dbl := x.bind Num.toDbl

/-- `try: body except OverflowError: handler`. -/
def catchOverflow {α : Type} (body handler : M α) : M α := fun s =>
  match body s with
  | (.error .overflowError, s') => handler s'
  | r => r

/-- `exp`, /repo/intvalpy/kernel/interval_arithmetics.pyx:258-265. -/
def exp (lm : Libm) (x : FIv) : M FIv :=
  catchOverflow (do
    let p ← op fun m => toD (lm.exp m x.a)
    let q ← op fun m => toD (lm.exp m x.b)
    return ⟨x.cls, .dbl (nextDown p), .dbl (nextUp q)⟩)
    (return ⟨x.cls, .dbl .pinf, .dbl .pinf⟩)

/-- `sqrt`: `np.exp(0.5 * np.log(self))`, /repo/intvalpy/kernel/interval_arithmetics.pyx:255-256. -/
def sqrt (lm : Libm) (x : FIv) : M FIv := do
  let l ← log lm.log x
  let h ← rmul (.dbl (.fin (1 / 2))) l
  exp lm h

/-- `X ** c` for an exponent that is not a natural number (a `float` or a negative `int`), lines 479-482 and
635-638: `self >= 0` compares both endpoints. -/
def powReal (lm : Libm) (x : FIv) (c : Num) : M FIv :=
  if (Num.int 0).le x.a && (Num.int 0).le x.b then do
    let l ← log lm.log x
    let h ← rmul c l
    exp lm h
  else raise .valueError

/-- `X ** Y` for two intervals: neither an `int` nor a number, so the same branch,
/repo/intvalpy/kernel/interval_arithmetics.pyx:479-480 with `other * np.log(self)` an interval product. -/
def powIv (lm : Libm) (x y : FIv) : M FIv :=
  if (Num.int 0).le x.a && (Num.int 0).le x.b then do
    let l ← log lm.log x
    let h ← mul y l
    exp lm h
  else raise .valueError

/-- C `ceil`. -/
def dceil : Dbl → Dbl
  | .fin q => .fin (⌈q⌉ : ℤ)
  | d => d

/-- C `floor`. -/
def dfloor : Dbl → Dbl
  | .fin q => .fin (⌊q⌋ : ℤ)
  | d => d

/-- `v + PI/2`, `v - PI/2`, `v - PI` or just `v`, lines 295, 301, 308, 314, 328, 334, 341, 347. -/
inductive Shift
  | plusHalf
  | minusHalf
  | minusPi
  | none
  deriving DecidableEq, Repr

/-- The shifted argument in the current mode. -/
def shifted : Shift → Num → M Num
  | .plusHalf, v => nadd v (.dbl (.fin (piD / 2)))
  | .minusHalf, v => nsub v (.dbl (.fin (piD / 2)))
  | .minusPi, v => nsub v (.dbl (.fin piD))
  | .none, v => pure v

/-- `shifted / (2*PI)` converted to a C double. -/
def turns (sh : Shift) (v : Num) : M Dbl := do
  let t ← shifted sh v
  let q ← ndiv t (.dbl (.fin (2 * piD)))
  op fun _ => q.toDbl

/-- `ceil((x.a + s) / (2*PI)) <= floor((x.b + s) / (2*PI))` in the current mode. -/
def extremumInside (sh : Shift) (lo hi : Num) : M Bool := do
  let p ← turns sh lo
  let q ← turns sh hi
  return Dbl.le (dceil p) (dfloor q)

/-- One endpoint of `sin` or `cos`: the extremal value if the test answers yes, otherwise the neighbour of
`v`, lines 294-298 and the like. -/
def trigEnd (sh : Shift) (lo hi : Num) (ext : ℤ) (next : Dbl → Dbl) (v : Num) : M Num := do
  if ← extremumInside sh lo hi then return .dbl (.fin ext)
  else
    let d ← op fun _ => v.toDbl
    return .dbl (next d)

/-- The common shape of `sin` (lines 288-318) and `cos` (lines 321-351): the values at the two endpoints are
computed in the ambient mode, `shMin`/`shMax` locate the minima/maxima. -/
def trig (f : Mode → Num → Except Err Num) (shMin shMax : Shift) (x : FIv) : M FIv := do
  let lo := x.proLo
  let hi := x.proHi
  let p ← op fun m => f m lo
  let q ← op fun m => f m hi
  if x.a.le x.b then do
    let inf ← withRounding .down (trigEnd shMin lo hi (-1) nextDown (p.min2 q))
    let sup ← withRounding .up (trigEnd shMax lo hi 1 nextUp (p.max2 q))
    return ⟨x.cls, inf, sup⟩
  else do
    let sup ← withRounding .down (trigEnd shMax lo hi 1 nextDown (p.max2 q))
    let inf ← withRounding .up (trigEnd shMin lo hi (-1) nextUp (p.min2 q))
    return ⟨x.cls, sup, inf⟩

/-- `sin`, /repo/intvalpy/kernel/interval_arithmetics.pyx:288-318. -/
def sin (lm : Libm) (x : FIv) : M FIv := trig lm.sin .plusHalf .minusHalf x

/-- `cos`, /repo/intvalpy/kernel/interval_arithmetics.pyx:321-351. -/
def cos (lm : Libm) (x : FIv) : M FIv := trig lm.cos .minusPi .none x

end FIv
end IntvalPy
