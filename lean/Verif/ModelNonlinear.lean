import Verif.ModelLinear

/-!
# Nonlinear solvers

/repo/intvalpy/nonlinear/external_evaluation.py and globopt.py.
The user's functions are parameters: they map an interval (or a box) to an interval, or raise.
-/

set_option autoImplicit false
set_option linter.unusedSectionVars false

namespace IntvalPy

variable {K : Type*} [Field K] [LinearOrder K]

/-- `asinterval(c)` of a number: `Interval(c, c, sortQ=False)`, /repo/intvalpy/kernel/preprocessing.py:99-100. -/
def degen (c : K) : Iv K := ⟨.classical, c, c⟩

/-- The inner function `K(X, c)` for scalar intervals, /repo/intvalpy/nonlinear/external_evaluation.py:55-62.
`1/L.mid` is a division of Python floats. -/
def krawStep (R : Rnd K) (func J : Iv K → Except Err (Iv K)) (X c : Iv K) : Except Err (Iv K) :=
  match J X with
  | .error e => .error e
  | .ok L =>
      if L.mid R = 0 then .error .zeroDivisionError
      else
        let lam := R.nr (1 / L.mid R)
        let B := (Iv.rmul R lam L).rsub R 1
        match func c with
        | .error e => .error e
        | .ok Fc => .ok ((c.sub R (Iv.rmul R lam Fc)).add R (B.mul R (X.sub R c)))

/-- The inner function `HS(X, c)` for scalar intervals, /repo/intvalpy/nonlinear/external_evaluation.py:11-23. -/
def hsStep (R : Rnd K) (func J : Iv K → Except Err (Iv K)) (X c : Iv K) : Except Err (Iv K) :=
  match J X with
  | .error e => .error e
  | .ok L =>
      if L.mid R = 0 then .error .zeroDivisionError
      else
        let lam := R.nr (1 / L.mid R)
        let A := Iv.rmul R lam L
        match func c with
        | .error e => .error e
        | .ok Fc =>
            let b := Iv.rmul R (-lam) Fc
            if A.containsNum 0 then .error .exception
            else (b.div R A).map fun GS => c.add R GS

/-- `error > tol`, with `infinity` as `none`, /repo/intvalpy/nonlinear/external_evaluation.py:42, 81. -/
def nlFar (tol : K) : Option K → Bool
  | none => true
  | some d => decide (tol < d)

/-- The `while` loops of /repo/intvalpy/nonlinear/external_evaluation.py:40-50 and 79-90.  The fuel is the number of
passes the iteration limit still allows; `none` is the NaN interval, which is returned at once. -/
def nlLoop (R : Rnd K) (step : Iv K → Iv K → Except Err (Iv K)) (tol : K) :
    ℕ → Iv K → Option K → Except Err (Option (Iv K))
  | 0, result, _ => .ok (some result)
  | fuel + 1, result, error =>
      if nlFar tol error then
        match step result (degen (result.mid R)) with
        | .error e => .error e
        | .ok Z =>
            match intersect R result Z with
            | none => .ok none
            | some r => nlLoop R step tol fuel r (some (dist r result))
      else .ok (some result)

/-- `Krawczyk(func, J, x0, maxiter, tol)` for a scalar interval `x0`,
/repo/intvalpy/nonlinear/external_evaluation.py:53-90; the loop runs while `nit <= maxiter`. -/
def krawczyk (R : Rnd K) (func J : Iv K → Except Err (Iv K)) (x0 : Iv K) (maxiter : ℤ) (tol : K) :
    Except Err (Option (Iv K)) :=
  match func x0 with
  | .error e => .error e
  | .ok F =>
      if F.containsNum 0 then nlLoop R (krawStep R func J) tol (maxiter + 1).toNat x0 none
      else .error .exception

/-- `HansenSengupta(func, J, x0, maxiter, tol)` for a scalar interval `x0`,
/repo/intvalpy/nonlinear/external_evaluation.py:9-50; the loop runs while `nit < maxiter`. -/
def hansenSengupta (R : Rnd K) (func J : Iv K → Except Err (Iv K)) (x0 : Iv K) (maxiter : ℤ) (tol : K) :
    Except Err (Option (Iv K)) :=
  match func x0 with
  | .error e => .error e
  | .ok F =>
      if F.containsNum 0 then nlLoop R (hsStep R func J) tol maxiter.toNat x0 none
      else .error .exception

/-- `L.to_float()` of an interval array: `np.vectorize(lambda el: el.to_float())`,
/repo/intvalpy/kernel/real_intervals.py:59-60.  The interval classes have no attribute `to_float`
(/repo/intvalpy/kernel/interval_arithmetics.pyx), and `np.vectorize` raises `ValueError` for an empty array. -/
def toFloat {n m : ℕ} (_L : Fin n → Fin m → Iv K) : Except Err (Fin n → Fin m → Iv K) :=
  if n = 0 ∨ m = 0 then .error .valueError else .error .attributeError

/-- `0 in func(x0)` for an interval vector: true as soon as one component contains zero,
/repo/intvalpy/kernel/real_intervals.py:155-160 (an empty array leaves `contain` unbound). -/
def zeroInVec (F : List (Iv K)) : Except Err Bool :=
  if F.isEmpty then .error .unboundLocalError else .ok (F.any fun X => X.containsNum 0)

/-- Both functions for an interval vector `x0` of length `n`, with the limit on passes already turned into
`passes`, /repo/intvalpy/nonlinear/external_evaluation.py:25-47, 64-86.  The first pass evaluates
`L.to_float()`; `rest` stands for everything after that. -/
def nlVec {n : ℕ} (func : (Fin n → Iv K) → Except Err (List (Iv K)))
    (J : (Fin n → Iv K) → Except Err (Fin n → Fin n → Iv K)) (x0 : Fin n → Iv K) (passes : ℕ)
    (rest : (Fin n → Fin n → Iv K) → Except Err (Fin n → Iv K)) : Except Err (Fin n → Iv K) :=
  match func x0 with
  | .error e => .error e
  | .ok F =>
      match zeroInVec F with
      | .error e => .error e
      | .ok false => .error .exception
      | .ok true =>
          match passes with
          | 0 => .ok x0
          | _ + 1 =>
              match J x0 with
              | .error e => .error e
              | .ok L =>
                  match toFloat L with
                  | .error e => .error e
                  | .ok L' => rest L'

/-! ## globopt -/

/-- The loop of `bisect.bisect_left` on the keys: `lo` and `hi` close in on the place.  Used at
/repo/intvalpy/nonlinear/globopt.py:35, 39 (standard library). -/
def bisectGo (keys : List K) (v : K) : ℕ → ℕ → ℕ → ℕ
  | 0, lo, _ => lo
  | fuel + 1, lo, hi =>
      if lo < hi then
        let mid := (lo + hi) / 2
        match keys[mid]? with
        | none => lo
        | some k => if k < v then bisectGo keys v fuel (mid + 1) hi else bisectGo keys v fuel lo mid
      else lo

/-- `bisect_left(KeyWrapper(L, key=...), v)`, /repo/intvalpy/nonlinear/globopt.py:7-16, 35. -/
def bisectLeft (keys : List K) (v : K) : ℕ := bisectGo keys v (keys.length + 1) 0 keys.length

/-- `L.insert(bisect_left(...), newcol)`, /repo/intvalpy/nonlinear/globopt.py:34-36. -/
def globInsert {n : ℕ} (L : List ((Fin n → Iv K) × K)) (c : (Fin n → Iv K) × K) : List ((Fin n → Iv K) × K) :=
  L.insertIdx (bisectLeft (L.map Prod.snd) c.2) c

/-- One pass of the loop body, /repo/intvalpy/nonlinear/globopt.py:26-42. -/
def globStep {n : ℕ} (R : Rnd K) (func : (Fin n → Iv K) → Except Err (Iv K))
    (L : List ((Fin n → Iv K) × K)) (Y : Fin n → Iv K) : Except Err (List ((Fin n → Iv K) × K)) :=
  match argmaxOn (fun i => (Y i).wid R) (List.finRange n) with
  | none => .error .valueError
  | some l =>
      match L with
      | [] => .error .indexError
      | (Y0, _) :: rest =>
          let Y1 := Function.update Y0 l (mkIv (Y l).a ((Y l).mid R))
          let Y2 := Function.update Y0 l (mkIv ((Y l).mid R) (Y l).b)
          match func Y1 with
          | .error e => .error e
          | .ok F1 =>
              match func Y2 with
              | .error e => .error e
              | .ok F2 => .ok (globInsert (globInsert rest (Y1, F1.a)) (Y2, F2.a))

/-- The `while` loop, /repo/intvalpy/nonlinear/globopt.py:24-42; the fuel is the number of passes that
`nit <= maxiter` still allows.  `Y` is always `L[0][0]`. -/
def globLoop {n : ℕ} (R : Rnd K) (func : (Fin n → Iv K) → Except Err (Iv K)) (tol : K) :
    ℕ → List ((Fin n → Iv K) × K) → Except Err (List ((Fin n → Iv K) × K))
  | 0, L => .ok L
  | fuel + 1, L =>
      match L with
      | [] => .error .indexError
      | (Y, y) :: rest =>
          match func Y with
          | .error e => .error e
          | .ok F =>
              if tol ≤ F.wid R then
                match globStep R func ((Y, y) :: rest) Y with
                | .error e => .error e
                | .ok L' => globLoop R func tol fuel L'
              else .ok ((Y, y) :: rest)

/-- `globopt(func, x0, tol, maxiter)` for an interval vector `x0`, /repo/intvalpy/nonlinear/globopt.py:19-44. -/
def globopt {n : ℕ} (R : Rnd K) (func : (Fin n → Iv K) → Except Err (Iv K)) (x0 : Fin n → Iv K) (tol : K)
    (maxiter : ℤ) : Except Err ((Fin n → Iv K) × Iv K) :=
  match func x0 with
  | .error e => .error e
  | .ok F =>
      match globLoop R func tol (maxiter + 1).toNat [(x0, F.a)] with
      | .error e => .error e
      | .ok [] => .error .indexError
      | .ok ((Y, _) :: _) => (func Y).map fun v => (Y, v)

end IntvalPy
