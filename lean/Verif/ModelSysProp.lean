import Verif.ModelRecFun

/-!
# The measure of variability `ive`

/repo/intvalpy/linear/system_properties.py.  The random choices are a list of matrices of coin tosses (one for
each of the `N` passes); `np.linalg.cond` and `np.sqrt` are parameters.
-/

set_option autoImplicit false

namespace IntvalPy

variable {K : Type*} [Field K] [LinearOrder K]

/-- A numpy float: a number, an infinity (`true` is the negative one) or `nan`. -/
inductive NpF (K : Type*)
  | fin (v : K)
  | inf (neg : Bool)
  | nan
  deriving DecidableEq

namespace NpF

/-- `x < y` of numpy floats; comparisons with `nan` are false. -/
def lt : NpF K → NpF K → Bool
  | .fin x, .fin y => x < y
  | .fin _, .inf neg => !neg
  | .inf neg, .fin _ => neg
  | .inf p, .inf q => p && !q
  | _, _ => false

/-- `x * y` of numpy floats without rounding; `0 * inf` is `nan`. -/
def mul : NpF K → NpF K → NpF K
  | .fin x, .fin y => .fin (x * y)
  | .fin x, .inf q => if x = 0 then .nan else .inf (decide (x < 0) != q)
  | .inf p, .fin y => if y = 0 then .nan else .inf (p != decide (y < 0))
  | .inf p, .inf q => .inf (p != q)
  | _, _ => .nan

/-- `x / y` of two finite numpy floats without rounding; the denominators that occur are nonnegative (`+0.0`). -/
def div (x y : K) : NpF K :=
  if y = 0 then (if x = 0 then .nan else .inf (decide (x < 0))) else .fin (x / y)

end NpF

variable {m n : ℕ}

/-- One pass of the two inner loops, /repo/intvalpy/linear/system_properties.py:36-38: `np.random.choice` takes
the first or the second of the two endpoints. -/
def iveCorner (I S : Fin m → Fin n → K) (coin : Fin m → Fin n → Bool) : Fin m → Fin n → K :=
  fun k l => if coin k l then S k l else I k l

/-- The loop over `range(N)`, /repo/intvalpy/linear/system_properties.py:33-40, started with `acc`; `N` is the
length of the list. -/
def iveCond (cond : (Fin m → Fin n → K) → NpF K) (I S : Fin m → Fin n → K) :
    List (Fin m → Fin n → Bool) → NpF K → NpF K
  | [], acc => acc
  | coin :: coins, acc =>
      let tmp := cond (iveCorner I S coin)
      iveCond cond I S coins (if tmp.lt acc then tmp else acc)

/-- The returned product, /repo/intvalpy/linear/system_properties.py:42; `sq` is `np.sqrt`. -/
def iveValue (sq : K → K) (b : Fin m → Iv K) (xr : Fin n → K) (fr : K) (c : NpF K) : NpF K :=
  NpF.mul (NpF.mul (NpF.mul (.fin (sq n)) (.fin fr)) c)
    (NpF.div (sq (∑ j, xr j ^ 2)) (sq (∑ i, (b i).mag ^ 2)))

/-- `ive(A, b, N)`, /repo/intvalpy/linear/system_properties.py:7-42, on the endpoint views `I`, `S` of `A`; `Tol.maximize(A, b)` is called with unit weights and without a constraint.  The warning
printed for the stop code 5 is left out. -/
def iveOf (P : RalgPar K n) (big : K) (x0 : Fin n → K) (sq : K → K) (cond : (Fin m → Fin n → K) → NpF K)
    (A : Fin m → Fin n → Iv K) (b : Fin m → Iv K) (I S : Fin m → Fin n → K)
    (coins : List (Fin m → Fin n → Bool)) : Except Err (NpF K) :=
  match RecFun.tol.maximize P big ((recData A b fun _ => 1).withViews I S) none x0 with
  | .error e => .error e
  | .ok o => .ok (iveValue sq b o.xr o.fr (iveCond cond I S coins (.inf false)))

/-- `ive(A, b, N)` with the endpoint views `A.a`, `A.b` as numpy computes them (see `arrA`),
/repo/intvalpy/linear/system_properties.py:7-42, /repo/intvalpy/kernel/real_intervals.py:27-33.  `b.mag` is a
`double` for every element (`fabs` in /repo/intvalpy/kernel/interval_arithmetics.pyx:145-147), so that this view
loses nothing. -/
def ive (P : RalgPar ℚ n) (big : ℚ) (x0 : Fin n → ℚ) (sq : ℚ → ℚ) (cond : (Fin m → Fin n → ℚ) → NpF ℚ)
    (A : Fin m → Fin n → FIv) (b : Fin m → FIv) (coins : List (Fin m → Fin n → Bool)) : Except Err (NpF ℚ) :=
  match arrA (rowMajor A), arrB (rowMajor A) with
  | .ok la, .ok lb =>
      iveOf P big x0 sq cond (fun i j => ivRat (A i j)) (fun i => ivRat (b i)) (viewMat la) (viewMat lb) coins
  | .error e, _ => .error e
  | _, .error e => .error e

end IntvalPy
