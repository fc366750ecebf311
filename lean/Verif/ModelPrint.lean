import Verif.ModelFloat

/-!
# What an interval shows when it is printed

/repo/intvalpy/kernel/interval_arithmetics.pyx:189-190: `"'[%.6g, %.6g]'" % (self.a, self.b)`.

The text itself is not modelled, only the number that a reader reads in it.  Python's `%.6g` converts an `int` to a
`float` first (`OverflowError` when it is too large) and then gives the decimal number with six significant digits that
is nearest to the exact value of the `float`, ties to the even last digit.
-/

set_option autoImplicit false

namespace IntvalPy

/-- The decimal exponent of the last of six significant digits of `x`. -/
def lastDigit (x : ℚ) : ℤ := Int.log 10 |x| - 5

/-- The number shown by `%.6g` for a finite float, interval_arithmetics.pyx:190.  Rounding up to the next power of ten
(`999999.7`, shown as `1e+06`) needs no separate case, since only the value is modelled. -/
def shown (x : ℚ) : ℚ := (nearInt (x / 10 ^ lastDigit x) : ℚ) * 10 ^ lastDigit x

/-- `%.6g` for every Python number; infinities and not-a-number are shown as such. -/
def showNum (x : Num) : Except Err Dbl :=
  match x.toDbl with
  | .error e => .error e
  | .ok (.fin q) => .ok (.fin (shown q))
  | .ok d => .ok d

/-- `__repr__`, interval_arithmetics.pyx:189-190: the two numbers shown. -/
def FIv.repr (X : FIv) : Except Err (Dbl × Dbl) :=
  match showNum X.a with
  | .error e => .error e
  | .ok p => match showNum X.b with
      | .error e => .error e
      | .ok q => .ok (p, q)

end IntvalPy
