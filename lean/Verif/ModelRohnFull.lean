import Verif.ModelLinear
import Verif.ModelRecFun

/-!
# `Rohn` as it is called: the choice of the solution set, and the test for emptiness with `Tol.maximize`

`/repo/intvalpy/linear/Rohn.py`.
-/

set_option autoImplicit false

namespace IntvalPy

variable {K : Type*} [Field K] [LinearOrder K] [IsStrictOrderedRing K]

/-- `_Rohn_Tol(A, b, nu)` with its call of `Tol.maximize(A, b)`, /repo/intvalpy/linear/Rohn.py:45-61: weights one, no
constraint, default parameters `P`; `x0` is the default starting point. -/
def rohnTolFull {n m : ℕ} (P : RalgPar K m) (big : K)
    (lp : LpSolver K (Fin n ⊕ Fin n ⊕ (Fin m ⊕ Fin m)) (Fin m ⊕ Fin m)) (x0 : Fin m → K)
    (A : Fin n → Fin m → Iv K) (b : Fin n → Iv K) (nu : Option (Fin m)) : Except Err (List (Iv K)) :=
  match RecFun.tol.maximize P big (recData A b fun _ => 1) none x0 with
  | .error e => .error e
  | .ok o => rohnTol lp o.fr A b nu

/-- `Rohn(A, b, tol, maxiter, consistency)`, /repo/intvalpy/linear/Rohn.py:92-123. -/
def rohn {n m : ℕ} (inv : (Fin m → Fin m → K) → Except Err (Fin m → Fin m → K)) (P : RalgPar K m) (big : K)
    (lp : LpSolver K (Fin n ⊕ Fin n ⊕ (Fin m ⊕ Fin m)) (Fin m ⊕ Fin m)) (x0 : Fin m → K)
    (A : Fin n → Fin m → Iv K) (b : Fin n → Iv K) (tol : K) (maxiter : ℤ) (consistency : String) :
    Except Err (List (Iv K)) :=
  if consistency = "uni" then
    match rohnUni inv A b tol maxiter with
    | .error e => .error e
    | .ok (X, _) => .ok (List.ofFn X)
  else if consistency = "tol" then rohnTolFull P big lp x0 A b none
  else .error .exception

/-- The default arguments of `ralgb5` for one unknown, /repo/intvalpy/kernel/ralgb5.py:3; the Euclidean norm of one
number is its absolute value. -/
def defaultPar1 : RalgPar ℚ 1 where
  tolx := 1 / 10 ^ 12
  tolg := 1 / 10 ^ 12
  tolf := 1 / 10 ^ 12
  maxiter := 2000
  alpha := 23 / 10
  nsims := 30
  h0 := 1
  nh := 3
  q1 := 9 / 10
  q2 := 11 / 10
  norm v := |v 0|
  normalize v _ := v 0 / |v 0|

end IntvalPy
