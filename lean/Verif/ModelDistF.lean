import Verif.ModelFloat

/-!
# `dist` in double arithmetic

/repo/intvalpy/kernel/utils.py:14-37 with the default order, on endpoints that are Python numbers (L1): integers of
any size, finite doubles, infinities and NaN.  Simplified: `np.maximum` of a float and an integer beyond 64 bits
compares Python objects; here the integer is converted to a double as for smaller ones.  Integer endpoint views of
arrays wrap around beyond 64 bits; here integers are exact.
-/

set_option autoImplicit false

namespace IntvalPy

/-- `abs` of a float, /repo/intvalpy/kernel/utils.py:34. -/
def Dbl.pyAbs : Dbl → Dbl
  | .fin q => .fin |q|
  | .pinf => .pinf
  | .ninf => .pinf
  | .nan => .nan

/-- Python `abs` of a number, /repo/intvalpy/kernel/utils.py:34. -/
def Num.pyAbs : Num → Num
  | .int z => .int |z|
  | .dbl d => .dbl d.pyAbs

/-- `np.maximum` of two floats: NaN as soon as one is NaN, /repo/intvalpy/kernel/utils.py:34. -/
def Dbl.npMaximum : Dbl → Dbl → Dbl
  | .nan, _ => .nan
  | _, .nan => .nan
  | x, y => if x.lt y then y else x

/-- `np.maximum` of two numbers: integers exactly, otherwise as floats, /repo/intvalpy/kernel/utils.py:34. -/
def Num.npMaximum : Num → Num → Except Err Num
  | .int z, .int w => .ok (.int (max z w))
  | x, y => Num.viaDbl (fun p q => .ok (p.npMaximum q)) x y

namespace FIv
open M

/-- `dist(x, y)` of two intervals, /repo/intvalpy/kernel/utils.py:33-37.  The subtractions run in the ambient
rounding mode. -/
def dist (x y : FIv) : M Num := do
  let p ← nsub x.a y.a
  let q ← nsub x.b y.b
  op fun _ => Num.npMaximum p.pyAbs q.pyAbs

/-- `dist(x, y)` of two interval vectors of the same length, /repo/intvalpy/kernel/utils.py:33-37: `np.amax` of the
componentwise distances, which is NaN as soon as one of them is.  The endpoint views of an empty array raise
`ValueError` (C63). -/
def distVec : List (FIv × FIv) → M Num
  | [] => raise .valueError
  | p :: ps => do
      let d ← dist p.1 p.2
      ps.foldlM (fun acc q => do
        let e ← dist q.1 q.2
        op fun _ => Num.npMaximum acc e) d

end FIv

end IntvalPy
