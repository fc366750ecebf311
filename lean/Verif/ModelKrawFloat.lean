import Verif.ModelInter
import Verif.ModelDistF

/-!
# `Krawczyk` and `HansenSengupta` for one unknown on the float level

/repo/intvalpy/nonlinear/external_evaluation.py:9-90.  The user's functions are parameters; ends may be infinite or NaN.
-/

set_option autoImplicit false

namespace IntvalPy
open FIv M

/-- `asinterval(result.mid)`: `Interval(x, x, sortQ=False)` of the midpoint,
/repo/intvalpy/nonlinear/external_evaluation.py:38, 46, 77, 85 and /repo/intvalpy/kernel/preprocessing.py:99-100. -/
def centreN (X : FIv) : M FIv := do
  let m ← op fun s => X.midN s
  op fun s => fSingle s m m false false

/-- `LAMBDA = 1/L.mid`, lines 15 and 59. -/
def lambdaN (L : FIv) : M Num := do
  let m ← op fun s => L.midN s
  ndiv (.int 1) m

/-- The inner function `K(X, c)` for an interval, lines 55-62. -/
def krawStepN (func J : FIv → M FIv) (X c : FIv) : M FIv := do
  let L ← J X
  let lam ← lambdaN L
  let T ← rmul lam L
  let B ← rsub (.int 1) T
  let Fc ← func c
  let U ← rmul lam Fc
  let V ← FIv.sub c U
  let W ← FIv.sub X c
  let Y ← FIv.mul B W
  FIv.add V Y

/-- The inner function `HS(X, c)` for an interval, lines 11-23. -/
def hsStepN (func J : FIv → M FIv) (X c : FIv) : M FIv := do
  let L ← J X
  let lam ← lambdaN L
  let A ← rmul lam L
  let Fc ← func c
  let b ← rmul lam.neg Fc
  if A.containsNum (.int 0) then raise .exception
  else do
    let G ← FIv.div b A
    FIv.add c G

/-- The `while` loops, lines 40-50 and 79-90; the fuel is the number of passes still allowed, `none` for the error is
`infinity`. -/
def nlLoopN (step : FIv → FIv → M FIv) (tol : Num) : ℕ → FIv → FIv → Option Num → M FIv
  | 0, X, _, _ => return X
  | fuel + 1, X, c, err => do
      let far : Bool := match err with | none => true | some e => tol.lt e
      if far then do
        let Z ← step X c
        let Y ← X.intersect Z
        let bad ← op fun _ => isnanF Y
        if bad then return Y
        else do
          let c' ← centreN Y
          let e ← FIv.dist Y X
          nlLoopN step tol fuel Y c' (some e)
      else return X

/-- The test `0 in func(x0)` and the loop, lines 33-50 and 72-90. -/
def nlMainN (func : FIv → M FIv) (step : FIv → FIv → M FIv) (x0 : FIv) (passes : ℕ) (tol : Num) : M FIv := do
  let F ← func x0
  if F.containsNum (.int 0) then do
    let c ← centreN x0
    nlLoopN step tol passes x0 c none
  else raise .exception

/-- `Krawczyk(func, J, x0, maxiter, tol)` for an interval `x0`, lines 53-90 (`nit <= maxiter`). -/
def krawczykN (func J : FIv → M FIv) (x0 : FIv) (maxiter : ℤ) (tol : Num) : M FIv :=
  nlMainN func (krawStepN func J) x0 (maxiter + 1).toNat tol

/-- `HansenSengupta(func, J, x0, maxiter, tol)` for an interval `x0`, lines 9-50 (`nit < maxiter`). -/
def hansenN (func J : FIv → M FIv) (x0 : FIv) (maxiter : ℤ) (tol : Num) : M FIv :=
  nlMainN func (hsStepN func J) x0 maxiter.toNat tol

end IntvalPy
