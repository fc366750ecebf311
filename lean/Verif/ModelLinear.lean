import Verif.ModelArray
import Verif.ModelRecFun

/-!
# Linear solvers

/repo/intvalpy/linear/Gauss.py, Gauss_Seidel.py, Neumaier.py, Rohn.py, HBR.py.
Interval operations are rounded by `R`; operations of numpy on plain float arrays are exact here
(simplification), and `np.linalg.inv` and the linear programming solver are parameters.
-/

set_option autoImplicit false
set_option linter.unusedSectionVars false

namespace IntvalPy

variable {K : Type*} [Field K] [LinearOrder K]

/-- The zero interval put into the arrays made by `zeros`, /repo/intvalpy/kernel/new_objects.py:6-21. -/
def zeroIv : Iv K := ⟨.classical, 0, 0⟩

/-- `X - sum(l)` with the builtin `sum`, which starts from the number `0`: the empty sum is the number `0`
and `0 + Y` is `Y.__radd__(0)`, /repo/intvalpy/linear/Gauss.py:51, Gauss_Seidel.py:64. -/
def subSum (R : Rnd K) (X : Iv K) : List (Iv K) → Iv K
  | [] => X.subNum R 0
  | h :: t => X.sub R (t.foldl (Iv.add R) (h.radd R 0))

/-- One element of `array / interval`.  `ArrayInterval.__truediv__`
(/repo/intvalpy/kernel/real_intervals.py:265-271) evaluates `self._data / other`, and numpy hands the
ufunc to `other.__array_ufunc__`, which multiplies by the outward reciprocal without testing whether the
divisor contains zero (/repo/intvalpy/kernel/interval_arithmetics.pyx:365-370, 514-515). -/
def arrDivIv (R : Rnd K) (X Y : Iv K) : Except Err (Iv K) :=
  (Iv.recip R Y.cls Y).map fun q => X.mul R q

/-! ## Gauss -/

/-- `np.argmax`: the first position (among those listed) of the largest value. -/
def argmaxOn {ι : Type*} (f : ι → K) : List ι → Option ι
  | [] => none
  | i :: t => some (t.foldl (fun best k => if f best < f k then k else best) i)

/-- The variables of `Gauss` that survive a step. -/
structure GaussSt (K : Type*) (n : ℕ) where
  A : Fin n → Fin n → Iv K
  b : Fin n → Iv K

/-- Exchange of the rows `j` and `k` in the columns from `j` on, /repo/intvalpy/linear/Gauss.py:40-42. -/
def GaussSt.swap {n : ℕ} (S : GaussSt K n) (j k : Fin n) : GaussSt K n where
  A := fun i l => if j ≤ l then S.A (Equiv.swap j k i) l else S.A i l
  b := fun i => S.b (Equiv.swap j k i)

/-- The elimination of column `j`, /repo/intvalpy/linear/Gauss.py:45-47, with the reciprocal `q` of the pivot.
In line 46 both factors `r[j+1:, j]` and `A[j, j+1:]` are one-dimensional: their product is a vector
indexed by the column `l`, and the subtraction broadcasts it over the rows. -/
def GaussSt.eliminate {n : ℕ} (R : Rnd K) (S : GaussSt K n) (j : Fin n) (q : Iv K) : GaussSt K n :=
  let r : Fin n → Iv K := fun i => (S.A i j).mul R q
  { A := fun i l => if j < i ∧ j < l then (S.A i l).sub R ((r l).mul R (S.A j l)) else S.A i l
    b := fun i => if j < i then (S.b i).sub R ((r i).mul R (S.b j)) else S.b i }

/-- One pass of the loop over `j`, /repo/intvalpy/linear/Gauss.py:31-47. -/
def gaussStep {n : ℕ} (R : Rnd K) (S : GaussSt K n) (j : Fin n) : Except Err (GaussSt K n) :=
  match argmaxOn (fun i => (S.A i j).mig) ((List.finRange n).filter fun i => j ≤ i) with
  | none => .error .valueError
  | some k =>
      if 0 < (S.A k j).mig then
        let S' := S.swap j k
        (Iv.recip R (S'.A j j).cls (S'.A j j)).map (S'.eliminate R j)
      else .error .assertionError

/-- The loop over `j`, /repo/intvalpy/linear/Gauss.py:31. -/
def gaussForward {n : ℕ} (R : Rnd K) : List (Fin n) → GaussSt K n → Except Err (GaussSt K n)
  | [], S => .ok S
  | j :: js, S =>
      match gaussStep R S j with
      | .error e => .error e
      | .ok S' => gaussForward R js S'

/-- The backward step, /repo/intvalpy/linear/Gauss.py:50-51, over the indices still to be treated. -/
def gaussBack {n : ℕ} (R : Rnd K) (S : GaussSt K n) : List (Fin n) → (Fin n → Iv K) → Except Err (Fin n → Iv K)
  | [], x => .ok x
  | i :: is, x =>
      match (subSum R (S.b i) (((List.finRange n).filter fun l => i ≤ l).map fun l =>
          (S.A i l).mul R (x l))).div R (S.A i i) with
      | .error e => .error e
      | .ok X => gaussBack R S is (Function.update x i X)

/-- `Gauss(A, b)`, /repo/intvalpy/linear/Gauss.py:25-52. -/
def gauss {n : ℕ} (R : Rnd K) (A : Fin n → Fin n → Iv K) (b : Fin n → Iv K) : Except Err (Fin n → Iv K) :=
  match gaussForward R ((List.finRange n).filter fun j => j.val + 1 < n) ⟨A, b⟩ with
  | .error e => .error e
  | .ok S => gaussBack R S (List.finRange n).reverse fun _ => zeroIv

/-! ## Gauss_Seidel -/

/-- The preconditioner: a point matrix or an interval matrix,
/repo/intvalpy/linear/Gauss_Seidel.py:26-27. -/
inductive Precond (K : Type*) (n : ℕ)
  | point (C : Fin n → Fin n → K)
  | iv (C : Fin n → Fin n → Iv K)

/-- Entry of a matrix product; the object dot product is `none` only for `n = 0`, when there are no
entries. -/
def dotEntry (d : Option (Iv K)) : Iv K := d.getD zeroIv

/-- `C @ A`, /repo/intvalpy/linear/Gauss_Seidel.py:47. -/
def Precond.mulMat {n m : ℕ} (R : Rnd K) (C : Precond K n) (A : Fin n → Fin m → Iv K) : Fin n → Fin m → Iv K :=
  fun i l => dotEntry <|
    match C with
    | .point C => dotNI R (List.ofFn (C i)) (List.ofFn fun j => A j l)
    | .iv C => dotII R (List.ofFn (C i)) (List.ofFn fun j => A j l)

/-- `C @ b`, /repo/intvalpy/linear/Gauss_Seidel.py:48. -/
def Precond.mulVec {n : ℕ} (R : Rnd K) (C : Precond K n) (b : Fin n → Iv K) : Fin n → Iv K :=
  fun i => dotEntry <|
    match C with
    | .point C => dotNI R (List.ofFn (C i)) (List.ofFn b)
    | .iv C => dotII R (List.ofFn (C i)) (List.ofFn b)

/-- The test `(u > 0).any()` with `v = abs(B @ ones)`, `u = A @ v`,
/repo/intvalpy/linear/Gauss_Seidel.py:51-54. -/
def hTestGS {n : ℕ} (R : Rnd K) (A : Fin n → Fin n → Iv K) (B : Fin n → Fin n → K) : Bool :=
  let v : Fin n → K := fun i => |∑ j, B i j|
  (List.finRange n).any fun i =>
    let u := dotEntry (dotIN R (List.ofFn (A i)) (List.ofFn v))
    decide (0 < u.a) && decide (0 < u.b)

/-- `new_bar`, /repo/intvalpy/linear/Gauss_Seidel.py:64. -/
def gsBar {n : ℕ} (R : Rnd K) (A : Fin n → Fin n → Iv K) (b : Fin n → Iv K) (result pre : Fin n → Iv K)
    (k : Fin n) : Except Err (Iv K) :=
  (subSum R
    (subSum R (b k) (((List.finRange n).filter fun j => j < k).map fun j => (A k j).mul R (result j)))
    (((List.finRange n).filter fun j => k < j).map fun j => (A k j).mul R (pre j))).div R (A k k)

/-- The loop over `k`, /repo/intvalpy/linear/Gauss_Seidel.py:63-68. -/
def gsSweep {n : ℕ} (R : Rnd K) (A : Fin n → Fin n → Iv K) (b pre : Fin n → Iv K) :
    List (Fin n) → (Fin n → Iv K) → Except Err (Fin n → Iv K)
  | [], result => .ok result
  | k :: ks, result =>
      match gsBar R A b result pre k with
      | .error e => .error e
      | .ok bar =>
          match intersect R (pre k) bar with
          | none => .error .exception
          | some X => gsSweep R A b pre ks (Function.update result k X)

/-- `distance >= tol`, with `np.inf` as `none`, /repo/intvalpy/linear/Gauss_Seidel.py:62. -/
def gsFar (tol : K) : Option K → Bool
  | none => true
  | some d => decide (tol ≤ d)

/-- The `while` loop, /repo/intvalpy/linear/Gauss_Seidel.py:62-72; `distance = np.inf` is `none`, and the
fuel is the number of passes that `nit <= maxiter` still allows. -/
def gsLoop {n : ℕ} (R : Rnd K) (A : Fin n → Fin n → Iv K) (b : Fin n → Iv K) (tol : K) :
    ℕ → Option K → (Fin n → Iv K) → (Fin n → Iv K) → Except Err (Fin n → Iv K)
  | 0, _, _, result => .ok result
  | fuel + 1, distance, pre, result =>
      if gsFar tol distance then
        match gsSweep R A b pre (List.finRange n) result with
        | .error e => .error e
        | .ok result' =>
            match distVec (List.ofFn result') (List.ofFn pre) with
            | .error e => .error e
            | .ok d => gsLoop R A b tol fuel (some d) result' result'
      else .ok result

/-- `C = np.linalg.inv(A.mid) if C is None else C`, /repo/intvalpy/linear/Gauss_Seidel.py:46. -/
def gsPrecond {n : ℕ} (R : Rnd K) (inv : (Fin n → Fin n → K) → Except Err (Fin n → Fin n → K))
    (A : Fin n → Fin n → Iv K) : Option (Precond K n) → Except Err (Precond K n)
  | some C => .ok C
  | none => (inv fun i j => (A i j).mid R).map Precond.point

/-- `full(n, -1000, 1000) if x0 is None else x0`, /repo/intvalpy/linear/Gauss_Seidel.py:59. -/
def gsStart {n : ℕ} : Option (Fin n → Iv K) → Fin n → Iv K
  | none => fun _ => ⟨.classical, -1000, 1000⟩
  | some x0 => x0

/-- `Gauss_Seidel(A, b, x0, C, tol, maxiter)`, /repo/intvalpy/linear/Gauss_Seidel.py:41-73, for a square
matrix and a right-hand side of the same size.  `inv` is `np.linalg.inv`. -/
def gaussSeidel {n : ℕ} (R : Rnd K) (inv : (Fin n → Fin n → K) → Except Err (Fin n → Fin n → K))
    (A : Fin n → Fin n → Iv K) (b : Fin n → Iv K) (x0 : Option (Fin n → Iv K)) (C : Option (Precond K n))
    (tol : K) (maxiter : ℤ) : Except Err (Fin n → Iv K) :=
  match gsPrecond R inv A C with
  | .error e => .error e
  | .ok C =>
      let A' := C.mulMat R A
      let b' := C.mulVec R b
      match inv (compmat A') with
      | .error e => .error e
      | .ok B =>
          if hTestGS R A' B then
            gsLoop R A' b' tol (maxiter + 1).toNat none (gsStart x0) fun _ => zeroIv
          else .error .assertionError

/-! ## Neumaier -/

/-- `r = (b.rad - (b.mid - A_w @ y).mag) / np.sum(A_w.mag, axis=1)` for one row,
/repo/intvalpy/linear/Neumaier.py:42 (exact arithmetic). -/
def neumaierR {m : ℕ} (row : Fin m → Iv K) (b : Iv K) (y : Fin m → K) : K :=
  (b.rad Rnd.exact -
      (Iv.ufuncSub Rnd.exact (b.mid Rnd.exact) (dotEntry (dotIN Rnd.exact (List.ofFn row) (List.ofFn y)))).mag) /
    ∑ j, (row j).mag

/-- Broadcasting of two one-dimensional arrays: equal lengths, or one of them of length one; otherwise numpy
raises `ValueError`. -/
def npBroadcast2 {α β : Type*} (xs : List α) (ys : List β) : Except Err (List (α × β)) :=
  if xs.length = ys.length then .ok (xs.zip ys)
  else match xs, ys with
    | [x], ys => .ok (ys.map fun y => (x, y))
    | xs, [y] => .ok (xs.map fun x => (x, y))
    | _, _ => .error .valueError

/-- `Neumaier(A, b, y, w)`, /repo/intvalpy/linear/Neumaier.py:28-43, for `A` of shape `(n, m)`, `len(b) = n`,
`len(y) = m` and `len(w) = m` (other sizes raise).  `A @ np.diag(w)` is `A` with column `j` multiplied by `w[j]`
and zero products added.  The result of line 43 is an array of intervals.
Simplification: a row of `A_w` whose magnitudes are all zero (numpy divides by zero there and goes on with
`inf` or `nan`) is reported as an error. -/
def neumaier {n m : ℕ} (A : Fin n → Fin m → Iv K) (b : Fin n → Iv K) (y : Fin m → K) (w : Option (Fin m → K)) :
    Except Err (List (Iv K)) :=
  let Aw : Fin n → Fin m → Iv K := match w with
    | some w => fun i j => dotEntry (dotIN Rnd.exact (List.ofFn (A i))
        (List.ofFn fun l => if l = j then w j else 0))
    | none => A
  let box : Fin m → K := match w with
    | some w => w
    | none => fun _ => 1
  if (List.finRange n).any fun i => decide (∑ j, (Aw i j).mag = 0) then .error .zeroDivisionError
  else
    match npBroadcast2 (List.ofFn box) (List.ofFn fun i => neumaierR (Aw i) (b i) y) with
    | .error e => .error e
    | .ok prods =>
        (npBroadcast2 (List.ofFn y) (prods.map fun t => Iv.rmul Rnd.exact (t.1 * t.2) ⟨.classical, -1, 1⟩)).map
          fun l => l.map fun t => t.2.radd Rnd.exact t.1

/-! ## Rohn -/

/-- `Ac_plus = np.linalg.inv(Amid.T @ Amid) @ Amid.T`, /repo/intvalpy/linear/Rohn.py:67, 75. -/
def pseudoInv {n m : ℕ} (inv : (Fin m → Fin m → K) → Except Err (Fin m → Fin m → K)) (M : Fin n → Fin m → K) :
    Except Err (Fin m → Fin n → K) :=
  (inv fun i j => ∑ l, M l i * M l j).map fun I i k => ∑ j, I i j * M k j

/-- The `while` loop of `_Rohn_Uni`, /repo/intvalpy/linear/Rohn.py:81-88: the fuel counts the passes allowed by
`nit <= maxiter`; returned are `result` and `error` (`none` is `infinity`). -/
def rohnLoop {m : ℕ} (G : Fin m → Fin m → K) (g : Fin m → K) (tol : K) :
    ℕ → (Fin m → K) → Option K → Except Err ((Fin m → K) × Option K)
  | 0, result, error => .ok (result, error)
  | fuel + 1, d, error =>
      if gsFar tol error then
        let result : Fin m → K := fun i => ∑ j, G i j * d j + g i + tol
        match npAmax (List.ofFn fun i => |result i - d i|) with
        | .error e => .error e
        | .ok err => rohnLoop G g tol fuel result (some err)
      else .ok (d, error)

/-- `G` of line 78 of /repo/intvalpy/linear/Rohn.py. -/
def rohnG {n m : ℕ} (Q : Fin m → Fin n → K) (A : Fin n → Fin m → Iv K) (i j : Fin m) : K :=
  |(if i = j then 1 else 0) - ∑ k, Q i k * (A k j).mid Rnd.exact| + ∑ k, |Q i k| * (A k j).rad Rnd.exact

/-- `g` of line 79 of /repo/intvalpy/linear/Rohn.py. -/
def rohng {n m : ℕ} (Q : Fin m → Fin n → K) (A : Fin n → Fin m → Iv K) (b : Fin n → Iv K) (x0 : Fin m → K)
    (i : Fin m) : K :=
  |∑ k, Q i k * (∑ j, (A k j).mid Rnd.exact * x0 j - (b k).mid Rnd.exact)| +
    ∑ k, |Q i k| * (∑ j, (A k j).rad Rnd.exact * |x0 j| + (b k).rad Rnd.exact)

/-- `_Rohn_Uni(A, b, tol, maxiter)`, /repo/intvalpy/linear/Rohn.py:64-89, together with the last value of
`error` (which the code does not return).  After line 68 the matrix is square, so the assertion in line 72
holds.  `inv` is `np.linalg.inv`, called twice. -/
def rohnUni {n m : ℕ} (inv : (Fin m → Fin m → K) → Except Err (Fin m → Fin m → K)) (A : Fin n → Fin m → Iv K)
    (b : Fin n → Iv K) (tol : K) (maxiter : ℤ) : Except Err ((Fin m → Iv K) × Option K) :=
  match pseudoInv inv fun i j => (A i j).mid Rnd.exact with
  | .error e => .error e
  | .ok P =>
      let A' : Fin m → Fin m → Iv K := fun i l => dotEntry (dotNI Rnd.exact (List.ofFn (P i)) (List.ofFn fun k => A k l))
      let b' : Fin m → Iv K := fun i => dotEntry (dotNI Rnd.exact (List.ofFn (P i)) (List.ofFn b))
      match pseudoInv inv fun i j => (A' i j).mid Rnd.exact with
      | .error e => .error e
      | .ok Q =>
          let x0 : Fin m → K := fun i => ∑ k, Q i k * (b' k).mid Rnd.exact
          match rohnLoop (rohnG Q A') (rohng Q A' b' x0) tol (maxiter + 1).toNat (fun _ => 0) none with
          | .error e => .error e
          | .ok (result, error) =>
              .ok (fun i => if x0 i + result i < x0 i - result i then ⟨.classical, x0 i + result i, x0 i - result i⟩
                else ⟨.classical, x0 i - result i, x0 i + result i⟩, error)

/-- The constraint matrix of the linear program, /repo/intvalpy/linear/Rohn.py:24-32; the columns are
`u` (first `m`) and `v` (last `m`), the rows two blocks of `n` and one of `2*m`. -/
def rohnLpA {n m : ℕ} (A : Fin n → Fin m → Iv K) :
    Fin n ⊕ Fin n ⊕ (Fin m ⊕ Fin m) → Fin m ⊕ Fin m → K
  | .inl i, .inl j => (A i j).b
  | .inl i, .inr j => -(A i j).a
  | .inr (.inl i), .inl j => -(A i j).a
  | .inr (.inl i), .inr j => (A i j).b
  | .inr (.inr c), c' => if c = c' then -1 else 0

/-- The right-hand side, /repo/intvalpy/linear/Rohn.py:25, 34-35. -/
def rohnLpB {n m : ℕ} (b : Fin n → Iv K) : Fin n ⊕ Fin n ⊕ (Fin m ⊕ Fin m) → K
  | .inl i => (b i).b
  | .inr (.inl i) => -(b i).a
  | .inr (.inr _) => 0

/-- The objective, /repo/intvalpy/linear/Rohn.py:37-38. -/
def rohnLpC {m : ℕ} (nu : Fin m) : Fin m ⊕ Fin m → K
  | .inl j => if j = nu then 1 else 0
  | .inr j => if j = nu then -1 else 0

/-- A linear programming solver `minimize c z subject to A z ≤ b`, which raises unless the status is
`optimal`, /repo/intvalpy/linear/Rohn.py:14-21. -/
abbrev LpSolver (K : Type*) (ρ γ : Type) := (γ → K) → (ρ → γ → K) → (ρ → K) → Except Err (γ → K)

/-- `algo(A, b, nu)`, /repo/intvalpy/linear/Rohn.py:23-43. -/
def rohnAlgo {n m : ℕ} (lp : LpSolver K (Fin n ⊕ Fin n ⊕ (Fin m ⊕ Fin m)) (Fin m ⊕ Fin m))
    (A : Fin n → Fin m → Iv K) (b : Fin n → Iv K) (nu : Fin m) : Except Err (K × K) :=
  match lp (rohnLpC nu) (rohnLpA A) (rohnLpB b) with
  | .error e => .error e
  | .ok z =>
      match lp (fun c => -rohnLpC nu c) (rohnLpA A) (rohnLpB b) with
      | .error e => .error e
      | .ok z' => .ok (∑ c, z c * rohnLpC nu c, -∑ c, z' c * -rohnLpC nu c)

/-- The loop over `k`, /repo/intvalpy/linear/Rohn.py:51-55. -/
def rohnAll {n m : ℕ} (lp : LpSolver K (Fin n ⊕ Fin n ⊕ (Fin m ⊕ Fin m)) (Fin m ⊕ Fin m))
    (A : Fin n → Fin m → Iv K) (b : Fin n → Iv K) : List (Fin m) → Except Err (List (K × K))
  | [] => .ok []
  | k :: ks =>
      match rohnAlgo lp A b k with
      | .error e => .error e
      | .ok p =>
          match rohnAll lp A b ks with
          | .error e => .error e
          | .ok ps => .ok (p :: ps)

/-- The coordinates to estimate: all of them, or the requested one, /repo/intvalpy/linear/Rohn.py:51-59. -/
def rohnIdx {m : ℕ} : Option (Fin m) → List (Fin m)
  | none => List.finRange m
  | some k => [k]

/-- `_Rohn_Tol(A, b, nu)`, /repo/intvalpy/linear/Rohn.py:45-61; `tolval` is the value found by `Tol.maximize`
(C36).  The constructor with `sortQ=False` tags `inf ≤ sup` as classical. -/
def rohnTol {n m : ℕ} (lp : LpSolver K (Fin n ⊕ Fin n ⊕ (Fin m ⊕ Fin m)) (Fin m ⊕ Fin m)) (tolval : K)
    (A : Fin n → Fin m → Iv K) (b : Fin n → Iv K) (nu : Option (Fin m)) : Except Err (List (Iv K)) :=
  if tolval < 0 then .error .exception
  else
    match rohnAll lp A b (rohnIdx nu) with
    | .error e => .error e
    | .ok ps => .ok (ps.map fun p => mkIv p.1 p.2)

/-! ## HBR -/

/-- The exception raised by the evaluation of one element, if any (/repo/intvalpy/linear/HBR.py:55). -/
def errOf : Except Err (Iv K) → Option Err
  | .error e => some e
  | .ok _ => none

/-- The value of one element (/repo/intvalpy/linear/HBR.py:55). -/
def valOf : Except Err (Iv K) → Iv K
  | .error _ => zeroIv
  | .ok X => X

/-- Elementwise evaluation of an array expression, /repo/intvalpy/linear/HBR.py:55: the exception of the first
failing element is raised. -/
def allOk {n : ℕ} (f : Fin n → Except Err (Iv K)) : Except Err (Fin n → Iv K) :=
  match (List.finRange n).findSome? fun i => errOf (f i) with
  | some e => .error e
  | none => .ok fun i => valOf (f i)

/-- `Interval(-t, t)` (endpoints are sorted), /repo/intvalpy/linear/HBR.py:55. -/
def mkSym (t : K) : Iv K := if t < -t then ⟨.classical, t, -t⟩ else ⟨.classical, -t, t⟩

/-- `np.max` of a nonempty list. -/
def maxOf : List K → K
  | [] => 0
  | x :: xs => xs.foldl max x

/-- `HBR(A, b)` for a one-dimensional `b`, /repo/intvalpy/linear/HBR.py:26-55.  In line 49 both `v` and `w` are
one-dimensional, so `v @ w` is a single number.
Simplification: a zero divisor in the point arithmetic of lines 47, 52, 54 (where numpy goes on with `inf` or
`nan`) is reported as an error. -/
def hbr {n : ℕ} (R : Rnd K) (inv : (Fin n → Fin n → K) → Except Err (Fin n → Fin n → K))
    (A : Fin n → Fin n → Iv K) (b : Fin n → Iv K) : Except Err (Fin n → Iv K) :=
  match inv fun i j => (A i j).mid R with
  | .error e => .error e
  | .ok C =>
      let A' := (Precond.point C).mulMat R A
      let b' := (Precond.point C).mulVec R b
      let M := compmat A'
      match inv M with
      | .error e => .error e
      | .ok B =>
          let v : Fin n → K := fun i => |∑ j, B i j|
          let u : Fin n → K := fun i => ∑ j, M i j * v j
          if (List.finRange n).any fun i => decide (0 < u i) then
            let w : Fin n → K := fun j =>
              maxOf (List.ofFn fun i => -(∑ l, M i l * B l j - if i = j then 1 else 0) / u i)
            let dlow : Fin n → K := fun i => -(v i * w i - B i i)
            let B' : Fin n → Fin n → K := fun i j => B i j + ∑ l, v l * w l
            let u' : Fin n → K := fun i => ∑ j, B' i j * (b' j).mag
            if (List.finRange n).any fun i => decide (u i = 0 ∨ B' i i = 0 ∨ dlow i = 0) then
              .error .zeroDivisionError
            else
              let alpha : Fin n → K := fun i => M i i + -1 / B' i i
              let beta : Fin n → K := fun i => u' i / dlow i - (b' i).mag
              allOk fun i => ((b' i).add R (mkSym (beta i))).div R ((A' i i).add R (mkSym (alpha i)))
          else .error .assertionError

end IntvalPy
