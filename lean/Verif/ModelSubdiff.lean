import Verif.ModelRecFun
import Verif.ModelArray
import Mathlib.Data.Matrix.Mul
import Mathlib.Algebra.Order.Ring.Rat

/-!
# The subdifferential Newton method

/repo/intvalpy/linear/Subdiff.py.  Arrays of length `2n` are indexed by `Fin n ⊕ Fin n`: `inl j` is
position `j` (lower endpoints), `inr j` is position `j + n` (upper endpoints).  Point arithmetic on
the arrays is exact here; interval arithmetic takes the rounding `R`.
-/

set_option autoImplicit false
set_option linter.unusedSectionVars false

namespace IntvalPy

variable {K : Type*} [Field K] [LinearOrder K]

/-- Index of an array of length `2n`. -/
abbrev Dbl2 (n : Nat) := Fin n ⊕ Fin n

/-- `np.linalg.solve`: a parameter, the solution or an exception. -/
abbrev Solver (K : Type*) (n : Nat) := (Dbl2 n → Dbl2 n → K) → (Dbl2 n → K) → Except Err (Dbl2 n → K)

/-- `superMatrix`, /repo/intvalpy/linear/Subdiff.py:38-49: nonnegative midpoints on the diagonal
blocks, negative midpoints on the off-diagonal blocks. -/
def superMatrix (R : Rnd K) {n : Nat} (A : Fin n → Fin n → Iv K) : Dbl2 n → Dbl2 n → K
  | .inl i, .inl j => if 0 ≤ (A i j).mid R then (A i j).mid R else 0
  | .inl i, .inr j => if 0 ≤ (A i j).mid R then 0 else (A i j).mid R
  | .inr i, .inl j => if 0 ≤ (A i j).mid R then 0 else (A i j).mid R
  | .inr i, .inr j => if 0 ≤ (A i j).mid R then (A i j).mid R else 0

/-- The four cells of `F` that `calcSubgrad(F, i, j, ·, ·)` may write:
`F[i,j]`, `F[i,j+n]`, `F[i+n,j]`, `F[i+n,j+n]`. -/
structure Block (K : Type*) where
  ll : K
  lu : K
  ul : K
  uu : K
  deriving DecidableEq

/-- The number `k` of `calcSubgrad`, /repo/intvalpy/linear/Subdiff.py:55-58. -/
def sgK (a : Iv K) : Nat :=
  if 0 < npSign a.a * npSign a.b then (if 0 < npSign a.a then 0 else 2)
  else if a.a < a.b then 1 else 3

/-- The number `m` of `calcSubgrad`, /repo/intvalpy/linear/Subdiff.py:60-63. -/
def sgM (b : Iv K) : Nat :=
  if 0 < npSign b.a * npSign b.b then (if 0 < npSign b.a then 1 else 3)
  else if b.a ≤ b.b then 2 else 4

/-- `calcSubgrad`, /repo/intvalpy/linear/Subdiff.py:52-123, on a fresh zero block (the caller resets
`F` to zeros in every iteration, line 141, and visits each pair `(i, j)` once). -/
def calcSubgrad (a b : Iv K) : Block K :=
  match 4 * sgK a + sgM b with
  | 1 => ⟨a.a, 0, 0, a.b⟩
  | 2 => ⟨a.b, 0, 0, a.b⟩
  | 3 => ⟨a.b, 0, 0, a.a⟩
  | 4 => ⟨a.a, 0, 0, a.a⟩
  | 5 => ⟨0, a.a, 0, a.b⟩
  | 6 =>
      let u : K × K := if a.a * b.b < a.b * b.a then (0, a.a) else (a.b, 0)
      let v : K × K := if a.b * b.b < a.a * b.a then (a.a, 0) else (0, a.b)
      ⟨u.1, u.2, v.1, v.2⟩
  | 7 => ⟨a.b, 0, a.a, 0⟩
  | 9 => ⟨0, a.a, a.b, 0⟩
  | 10 => ⟨0, a.a, a.a, 0⟩
  | 11 => ⟨0, a.b, a.a, 0⟩
  | 12 => ⟨0, a.b, a.b, 0⟩
  | 13 => ⟨a.a, 0, a.b, 0⟩
  | 15 => ⟨0, a.b, 0, a.a⟩
  | 16 =>
      let u : K × K := if a.b * b.b < a.a * b.a then (a.a, 0) else (0, -a.b)
      let v : K × K := if a.a * b.b < a.b * b.a then (0, a.a) else (a.b, 0)
      ⟨u.1, u.2, v.1, v.2⟩
  | _ => ⟨0, 0, 0, 0⟩

/-- `Interval(x[j], x[j+n], sortQ=False)`, /repo/intvalpy/linear/Subdiff.py:148 and 167. -/
def ivAt {n : Nat} (x : Dbl2 n → K) (j : Fin n) : Iv K := mkIv (x (.inl j)) (x (.inr j))

/-- The matrix `F` after the double loop, /repo/intvalpy/linear/Subdiff.py:141-151. -/
def subgradMat {n : Nat} (A : Fin n → Fin n → Iv K) (x : Dbl2 n → K) : Dbl2 n → Dbl2 n → K
  | .inl i, .inl j => (calcSubgrad (A i j) (ivAt x j)).ll
  | .inl i, .inr j => (calcSubgrad (A i j) (ivAt x j)).lu
  | .inr i, .inl j => (calcSubgrad (A i j) (ivAt x j)).ul
  | .inr i, .inr j => (calcSubgrad (A i j) (ivAt x j)).uu

/-- The accumulation `s = Interval(0, 0)`, `s = s + g * h`, /repo/intvalpy/linear/Subdiff.py:144-150. -/
def rowSum (R : Rnd K) {n : Nat} (A : Fin n → Fin n → Iv K) (x : Dbl2 n → K) (i : Fin n) : Iv K :=
  (List.finRange n).foldl (fun s j => s.add R ((A i j).mul R (ivAt x j))) ⟨.classical, 0, 0⟩

/-- `t = s + b[i].opp`, /repo/intvalpy/linear/Subdiff.py:153. -/
def rowRes (R : Rnd K) {n : Nat} (A : Fin n → Fin n → Iv K) (b : Fin n → Iv K) (x : Dbl2 n → K)
    (i : Fin n) : Iv K := (rowSum R A x i).add R (b i).opp

/-- The array `xx` after the double loop, /repo/intvalpy/linear/Subdiff.py:154-155. -/
def resVec (R : Rnd K) {n : Nat} (A : Fin n → Fin n → Iv K) (b : Fin n → Iv K) (x : Dbl2 n → K) :
    Dbl2 n → K
  | .inl i => (rowRes R A b x i).a
  | .inr i => (rowRes R A b x i).b

/-- The number `r` after the double loop, /repo/intvalpy/linear/Subdiff.py:139, 157. -/
def resSum (R : Rnd K) {n : Nat} (A : Fin n → Fin n → Iv K) (b : Fin n → Iv K) (x : Dbl2 n → K) : K :=
  (List.finRange n).foldl (fun r i => r + (rowRes R A b x i).mag) 0

/-- The divisor `q`, /repo/intvalpy/linear/Subdiff.py:162-164. -/
def stepNorm {n : Nat} (normMin : K) (xx : Dbl2 n → K) : K :=
  let q := ∑ k, |xx k|
  if q ≤ normMin then 1 else q

/-- The damped Newton step, /repo/intvalpy/linear/Subdiff.py:159-160. -/
def newtonStep (R : Rnd K) {n : Nat} (solve : Solver K n) (A : Fin n → Fin n → Iv K) (b : Fin n → Iv K)
    (tau : K) (x : Dbl2 n → K) : Except Err (Dbl2 n → K) :=
  match solve (subgradMat A x) (resVec R A b x) with
  | .error e => .error e
  | .ok d => .ok fun k => x k - d k * tau

/-- The loop of lines 137-166; the fuel is the number of iterations allowed by `nit <= maxiter`, and
the test `r / q > tol` is evaluated at the end of an iteration (before the first one `r = inf` makes
it true). -/
def subdiffLoop (R : Rnd K) {n : Nat} (solve : Solver K n) (A : Fin n → Fin n → Iv K) (b : Fin n → Iv K)
    (tol tau normMin : K) : Nat → (Dbl2 n → K) → Except Err (Dbl2 n → K)
  | 0, xx => .ok xx
  | fuel + 1, x =>
      match newtonStep R solve A b tau x with
      | .error e => .error e
      | .ok xx =>
          if tol < resSum R A b x / stepNorm normMin xx then
            subdiffLoop R solve A b tol tau normMin fuel xx
          else .ok xx

/-- The square part of `Subdiff`, /repo/intvalpy/linear/Subdiff.py:130-167. -/
def subdiffSq (R : Rnd K) {n : Nat} (solve : Solver K n) (A : Fin n → Fin n → Iv K) (b : Fin n → Iv K)
    (tol : K) (maxiter : Int) (tau normMin : K) : Except Err (Fin n → Iv K) :=
  match solve (superMatrix R A) (Sum.elim (fun i => (b i).a) (fun i => (b i).b)) with
  | .error e => .error e
  | .ok x0 => (subdiffLoop R solve A b tol tau normMin (maxiter + 1).toNat x0).map fun xx j => ivAt xx j

/-- `Subdiff`, /repo/intvalpy/linear/Subdiff.py:6-167, with the two assertions of lines 127-128. -/
def subdiff (R : Rnd K) {n m k : Nat} (solve : Solver K n) (A : Fin n → Fin m → Iv K) (b : Fin k → Iv K)
    (tol : K) (maxiter : Int) (tau normMin : K) : Except Err (Fin n → Iv K) :=
  if h : n = m then
    if h' : m = k then
      subdiffSq R solve (fun i j => A i (Fin.cast h j)) (fun i => b (Fin.cast (h.trans h') i))
        tol maxiter tau normMin
    else .error .assertionError
  else .error .assertionError

end IntvalPy
