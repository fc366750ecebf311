import Verif.ModelPSSViews
import Verif.ModelNonlinear

/-!
# `globopt` on start boxes with integer and float endpoints

The component to bisect is chosen by `np.argmax(Y.wid)`, /repo/intvalpy/nonlinear/globopt.py:26.  The array view `wid`
(/repo/intvalpy/kernel/real_intervals.py:70-72) is cast to the type of its first element, so a first component with two integer
endpoints truncates the widths of all others.
Simplifications: finite endpoints; of the value of `func` only `a` and `wid` are read, so it is an exact interval.
-/

set_option autoImplicit false

namespace IntvalPy

/-- `L.insert(bisect_left(...), newcol)`, /repo/intvalpy/nonlinear/globopt.py:34-36, 38-40. -/
def globInsertF {n : ℕ} (L : List ((Fin n → FIv) × ℚ)) (c : (Fin n → FIv) × ℚ) : List ((Fin n → FIv) × ℚ) :=
  L.insertIdx (bisectLeft (L.map Prod.snd) c.2) c

/-- `Y[l].mid`, a float, /repo/intvalpy/kernel/interval_arithmetics.pyx:131-134. -/
def midNum (R : Rnd ℚ) (X : FIv) : Num := .dbl (.fin ((ivRat X).mid R))

/-- One pass of the loop body, /repo/intvalpy/nonlinear/globopt.py:26-42. -/
def globStepF {n : ℕ} (R : Rnd ℚ) (func : (Fin n → FIv) → Except Err (Iv ℚ)) (L : List ((Fin n → FIv) × ℚ))
    (Y : Fin n → FIv) : Except Err (List ((Fin n → FIv) × ℚ)) :=
  match widView R Y with
  | .error e => .error e
  | .ok w =>
      match argmaxOn w (List.finRange n) with
      | none => .error .valueError
      | some l =>
          match L with
          | [] => .error .indexError
          | (Y0, _) :: rest =>
              let Y1 := Function.update Y0 l (mkFIv (Y l).a (midNum R (Y l)))
              let Y2 := Function.update Y0 l (mkFIv (midNum R (Y l)) (Y l).b)
              match func Y1 with
              | .error e => .error e
              | .ok F1 =>
                  match func Y2 with
                  | .error e => .error e
                  | .ok F2 => .ok (globInsertF (globInsertF rest (Y1, F1.a)) (Y2, F2.a))

/-- The `while` loop, /repo/intvalpy/nonlinear/globopt.py:24-42 (see `globLoop`). -/
def globLoopF {n : ℕ} (R : Rnd ℚ) (func : (Fin n → FIv) → Except Err (Iv ℚ)) (tol : ℚ) :
    ℕ → List ((Fin n → FIv) × ℚ) → Except Err (List ((Fin n → FIv) × ℚ))
  | 0, L => .ok L
  | fuel + 1, L =>
      match L with
      | [] => .error .indexError
      | (Y, y) :: rest =>
          match func Y with
          | .error e => .error e
          | .ok F =>
              if tol ≤ F.wid R then
                match globStepF R func ((Y, y) :: rest) Y with
                | .error e => .error e
                | .ok L' => globLoopF R func tol fuel L'
              else .ok ((Y, y) :: rest)

/-- `globopt(func, x0, tol, maxiter)` for an array `x0` of interval objects, /repo/intvalpy/nonlinear/globopt.py:19-44. -/
def globoptF {n : ℕ} (R : Rnd ℚ) (func : (Fin n → FIv) → Except Err (Iv ℚ)) (x0 : Fin n → FIv) (tol : ℚ)
    (maxiter : ℤ) : Except Err ((Fin n → FIv) × Iv ℚ) :=
  match func x0 with
  | .error e => .error e
  | .ok F =>
      match globLoopF R func tol (maxiter + 1).toNat [(x0, F.a)] with
      | .error e => .error e
      | .ok [] => .error .indexError
      | .ok ((Y, _) :: _) => (func Y).map fun v => (Y, v)

end IntvalPy
