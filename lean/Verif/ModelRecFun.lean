import Verif.ModelArray
import Verif.ModelObjects
import Verif.SpecRecFun
import Mathlib.Algebra.BigOperators.Fin
import Mathlib.Algebra.BigOperators.Group.Finset.Basic
import Mathlib.Data.List.MinMax

/-!
# Recognizing functionals, linear constraints and the optimiser

/repo/intvalpy/linear/Tol.py, Uni.py, Uss.py, /repo/intvalpy/kernel/abstract.py, /repo/intvalpy/kernel/ralgb5.py.
Matrices are functions `Fin m → Fin n → _`; sums are exact (`Finset.sum`), i.e. the functionals are
modelled in exact arithmetic unless a rounding `R` is an argument.
-/

set_option autoImplicit false

namespace IntvalPy

variable {K : Type*} [Field K] [LinearOrder K]

/-! ## Public functionals -/

/-- `np.min` of a list; `ValueError` for an empty one. -/
def npAmin : List K → Except Err K
  | [] => .error .valueError
  | x :: xs => .ok (xs.foldl min x)

/-- One entry of `A @ x` for a point vector; with no columns numpy returns `False`, on which the following
`.mag` fails with `AttributeError`. -/
def rowDot (R : Rnd K) {n : ℕ} (row : Fin n → Iv K) (x : Fin n → K) : Except Err (Iv K) :=
  match dotIN R (List.ofFn row) (List.ofFn x) with
  | some Z => .ok Z
  | none => .error .attributeError

/-- `np.min` over the constituents, an exception in one of them propagates. -/
def minOver : List (Except Err K) → Except Err K := fun l =>
  match l.mapM id with
  | .ok vs => npAmin vs
  | .error e => .error e

/-- `Tol._constituent`, one row, /repo/intvalpy/linear/Tol.py:13-16: `weight * (b.rad - (b.mid - A @ x).mag)`. -/
def tolConstituent (R : Rnd K) {n : ℕ} (row : Fin n → Iv K) (b : Iv K) (w : K) (x : Fin n → K) :
    Except Err K :=
  match rowDot R row x with
  | .error e => .error e
  | .ok Z => .ok (R.nr (w * R.nr (b.rad R - (Iv.ufuncSub R (b.mid R) Z).mag)))

/-- `Tol.value`, /repo/intvalpy/linear/Tol.py:19-21. -/
def tolValue (R : Rnd K) {m n : ℕ} (A : Fin m → Fin n → Iv K) (b : Fin m → Iv K) (w : Fin m → K)
    (x : Fin n → K) : Except Err K :=
  minOver (List.ofFn fun i => tolConstituent R (A i) (b i) (w i) x)

/-- `Uni._constituent`, one row, /repo/intvalpy/linear/Uni.py:13-16. -/
def uniConstituent (R : Rnd K) {n : ℕ} (row : Fin n → Iv K) (b : Iv K) (w : K) (x : Fin n → K) :
    Except Err K :=
  match rowDot R row x with
  | .error e => .error e
  | .ok Z => .ok (R.nr (w * R.nr (b.rad R - (Iv.ufuncSub R (b.mid R) Z).mig)))

/-- `Uni.value`, /repo/intvalpy/linear/Uni.py:19-21. -/
def uniValue (R : Rnd K) {m n : ℕ} (A : Fin m → Fin n → Iv K) (b : Fin m → Iv K) (w : Fin m → K)
    (x : Fin n → K) : Except Err K :=
  minOver (List.ofFn fun i => uniConstituent R (A i) (b i) (w i) x)

/-- `Uss._constituent`, one row, in exact arithmetic, /repo/intvalpy/linear/Uss.py:13-16:
`weight * (b.rad + A.rad @ |x| - |b.mid - A.mid @ x|)`. -/
def ussConstituent {n : ℕ} (row : Fin n → Iv K) (b : Iv K) (w : K) (x : Fin n → K) : K :=
  w * (b.rad Rnd.exact + ∑ j, (row j).rad Rnd.exact * |x j|
    - |b.mid Rnd.exact - ∑ j, (row j).mid Rnd.exact * x j|)

/-- `Uss.value`, /repo/intvalpy/linear/Uss.py:19-21. -/
def ussValue {m n : ℕ} (A : Fin m → Fin n → Iv K) (b : Fin m → Iv K) (w : Fin m → K)
    (x : Fin n → K) : Except Err K :=
  npAmin (List.ofFn fun i => ussConstituent (A i) (b i) (w i) x)

/-! ## What the optimiser sees -/

/-- The data `optimize` extracts from the system, /repo/intvalpy/kernel/abstract.py:41-46. -/
structure RecData (K : Type*) (m n : ℕ) where
  infA : Fin m → Fin n → K
  supA : Fin m → Fin n → K
  Am : Fin m → Fin n → K
  Ar : Fin m → Fin n → K
  bm : Fin m → K
  br : Fin m → K
  weight : Fin m → K

/-- The data of a system whose endpoint views return the stored endpoints (see C63 for when they do not),
/repo/intvalpy/kernel/abstract.py:41-46. -/
def recData {m n : ℕ} (A : Fin m → Fin n → Iv K) (b : Fin m → Iv K) (w : Fin m → K) : RecData K m n where
  infA i j := (A i j).a
  supA i j := (A i j).b
  Am i j := (A i j).mid Rnd.exact
  Ar i j := (A i j).rad Rnd.exact
  bm i := (b i).mid Rnd.exact
  br i := (b i).rad Rnd.exact
  weight := w

variable {m n : ℕ}

/-- The same data with other endpoint views `infA`, `supA`, /repo/intvalpy/kernel/abstract.py:41. -/
def RecData.withViews (d : RecData K m n) (I S : Fin m → Fin n → K) : RecData K m n :=
  { d with infA := I, supA := S }

/-- The value of a finite Python number. -/
def numRat : Num → ℚ
  | .int z => z
  | .dbl (.fin q) => q
  | .dbl _ => 0

/-- An interval object with finite endpoints, as an exact interval. -/
def ivRat (X : FIv) : Iv ℚ := ⟨X.cls, numRat X.a, numRat X.b⟩

/-- The elements of a matrix in row-major order (how numpy's `vectorize` visits them). -/
def rowMajor {α : Type*} (A : Fin m → Fin n → α) : List α :=
  List.ofFn fun k : Fin (m * n) => A k.divNat k.modNat

/-- A flat list read as an `m × n` matrix. -/
def viewMat (l : List Num) (i : Fin m) (j : Fin n) : ℚ := numRat (l.getD (n * i + j) (.int 0))

/-- The data `optimize` extracts, including the casts made by the endpoint views `inf(A)`, `sup(A)`,
/repo/intvalpy/kernel/abstract.py:41-46, /repo/intvalpy/kernel/utils.py:134-160 (`data.a`, `data.b`).
Midpoints and radii are exact. -/
def optimizeData (A : Fin m → Fin n → FIv) (b : Fin m → FIv) (w : Fin m → ℚ) : Except Err (RecData ℚ m n) :=
  match arrA (rowMajor A), arrB (rowMajor A) with
  | .ok la, .ok lb =>
      .ok ((recData (fun i j => ivRat (A i j)) (fun i => ivRat (b i)) w).withViews (viewMat la) (viewMat lb))
  | .error e, _ => .error e
  | _, .error e => .error e

/-- `Am @ x` and `Ar @ np.abs(x)`, one entry, /repo/intvalpy/linear/Tol.py:27-28. -/
def amx (d : RecData K m n) (x : Fin n → K) (i : Fin m) : K := ∑ j, d.Am i j * x j
/-- See `amx`. -/
def arx (d : RecData K m n) (x : Fin n → K) (i : Fin m) : K := ∑ j, d.Ar i j * |x j|
/-- `infs`, /repo/intvalpy/linear/Tol.py:29. -/
def infs (d : RecData K m n) (x : Fin n → K) (i : Fin m) : K := d.bm i - (amx d x i + arx d x i)
/-- `sups`, /repo/intvalpy/linear/Tol.py:30. -/
def sups (d : RecData K m n) (x : Fin n → K) (i : Fin m) : K := d.bm i - (amx d x i - arx d x i)

/-- `np.argmin`: the first index of a least element; `ValueError` for an empty array. -/
def npArgmin (f : Fin m → K) : Except Err (Fin m) :=
  match (List.finRange m).argmin f with
  | some i => .ok i
  | none => .error .valueError

/-- `tol` of `Tol.calcfg`, /repo/intvalpy/linear/Tol.py:31. -/
def tolArr (d : RecData K m n) (x : Fin n → K) (i : Fin m) : K :=
  d.weight i * (d.br i - max |infs d x i| |sups d x i|)

/-- The row `p * index + q * (~index)` with `index = x >= 0`, /repo/intvalpy/linear/Tol.py:26,34,36. -/
def mixRow (p q x : Fin n → K) (j : Fin n) : K := if 0 ≤ x j then p j else q j

/-- `Tol.calcfg`, /repo/intvalpy/linear/Tol.py:25-37: minus the value and minus the supergradient. -/
def tolCalcfg (d : RecData K m n) (x : Fin n → K) : Except Err (K × (Fin n → K)) :=
  match npArgmin (tolArr d x) with
  | .error e => .error e
  | .ok mc =>
      let dtol : Fin n → K :=
        if -(infs d x mc) ≤ sups d x mc then
          fun j => d.weight mc * mixRow (d.infA mc) (d.supA mc) x j
        else fun j => -d.weight mc * mixRow (d.supA mc) (d.infA mc) x j
      .ok (-(tolArr d x mc), fun j => -(dtol j))

/-- `mig` of `Uni.calcfg`, /repo/intvalpy/linear/Uni.py:31-34. -/
def uniMig (inf sup : K) : K := if inf * sup ≤ 0 then 0 else min |inf| |sup|

/-- `uni` of `Uni.calcfg`, /repo/intvalpy/linear/Uni.py:35. -/
def uniArr (d : RecData K m n) (x : Fin n → K) (i : Fin m) : K :=
  d.weight i * (d.br i - uniMig (infs d x i) (sups d x i))

/-- `Uni.calcfg`, /repo/intvalpy/linear/Uni.py:25-41. -/
def uniCalcfg (d : RecData K m n) (x : Fin n → K) : Except Err (K × (Fin n → K)) :=
  match npArgmin (uniArr d x) with
  | .error e => .error e
  | .ok mc =>
      let duni : Fin n → K :=
        if -(infs d x mc) ≤ sups d x mc then
          fun j => d.weight mc * mixRow (d.supA mc) (d.infA mc) x j
        else fun j => -d.weight mc * mixRow (d.infA mc) (d.supA mc) x j
      .ok (-(uniArr d x mc), fun j => -(duni j))

/-- `np.sign`. -/
def npSign (t : K) : K := if 0 < t then 1 else if t < 0 then -1 else 0

/-- `uss` of `Uss.calcfg`, /repo/intvalpy/linear/Uss.py:28. -/
def ussArr (d : RecData K m n) (x : Fin n → K) (i : Fin m) : K :=
  d.weight i * (d.br i + arx d x i - |d.bm i - amx d x i|)

/-- `Uss.calcfg`, /repo/intvalpy/linear/Uss.py:25-31. -/
def ussCalcfg (d : RecData K m n) (x : Fin n → K) : Except Err (K × (Fin n → K)) :=
  match npArgmin (ussArr d x) with
  | .error e => .error e
  | .ok mc =>
      let duss : Fin n → K := fun j =>
        d.weight mc * (npSign (x j) * d.Ar mc j + npSign (d.bm mc - amx d x mc) * d.Am mc j)
      .ok (-(ussArr d x mc), fun j => -(duss j))

/-! ## Linear constraints -/

/-- The attributes `C`, `b` of a `LinearConstraint` after `__init__`: the rows `C x <= b`. -/
abbrev Rows (K : Type*) (n : ℕ) := List ((Fin n → K) × K)

/-- The loop over `lb` in `__init__`, /repo/intvalpy/kernel/abstract.py:214-219: rows with a finite bound and a
nonzero row of `C`, negated. -/
def lbRows {p n : ℕ} (C : Fin p → Fin n → K) (lb : Fin p → Bound K) : Rows K n :=
  (List.finRange p).filterMap fun k =>
    match lb k with
    | .fin c => if ∃ j, C k j ≠ 0 then some (fun j => -(C k j), -c) else none
    | _ => none

/-- The loop over `ub` in `__init__`, /repo/intvalpy/kernel/abstract.py:221-226. -/
def ubRows {p n : ℕ} (C : Fin p → Fin n → K) (ub : Fin p → Bound K) : Rows K n :=
  (List.finRange p).filterMap fun k =>
    match ub k with
    | .fin c => if ∃ j, C k j ≠ 0 then some (C k, c) else none
    | _ => none

/-- `LinearConstraint.__init__`, /repo/intvalpy/kernel/abstract.py:206-246 (bounds of the right length).
The factors `w` are drawn from `uniform(1, 1)`, i.e. are 1.  Without any usable row the code reads
`ub[0]` (`TypeError` if `ub` is `None`) and then the unassigned local `W` (`UnboundLocalError`).
With both bounds missing `C` becomes one-dimensional, and `linear_penalty` fails to unpack its shape
(`ValueError`); the result is `none` here. -/
def linearConstraint {p n : ℕ} (C : Fin p → Fin n → K) (lb ub : Option (Fin p → Bound K)) :
    Except Err (Option (Rows K n)) :=
  if p = 0 then .error .assertionError
  else match lb, ub with
  | none, none => .ok none
  | _, _ =>
      let rows := (match lb with | some l => lbRows C l | none => []) ++
        (match ub with | some u => ubRows C u | none => [])
      if rows = [] then
        match ub with
        | none => .error .typeError
        | some _ => .error .unboundLocalError
      else .ok (some rows)

/-- `C[i] @ x`. -/
def dotF {n : ℕ} (c x : Fin n → K) : K := ∑ j, c j * x j

/-- `linear_penalty`, the value, /repo/intvalpy/kernel/abstract.py:12-31, 248-250. -/
def linearPenalty {n : ℕ} (rows : Rows K n) (mu : K) (x : Fin n → K) : K :=
  mu * (rows.map fun r => if r.2 < dotF r.1 x then dotF r.1 x - r.2 else 0).sum

/-- `linear_penalty`, the gradient, /repo/intvalpy/kernel/abstract.py:12-31. -/
def linearPenaltyGrad {n : ℕ} (rows : Rows K n) (mu : K) (x : Fin n → K) : Fin n → K := fun j =>
  mu * (rows.map fun r => if r.2 < dotF r.1 x then r.1 j else 0).sum

/-- `calcfg_constr` of the three functionals, /repo/intvalpy/linear/Tol.py:41-45 (and Uni.py, Uss.py). -/
def calcfgConstr {n : ℕ} (calcfg : (Fin n → K) → Except Err (K × (Fin n → K))) (rows : Rows K n) (mu : K)
    (x : Fin n → K) : Except Err (K × (Fin n → K)) :=
  (calcfg x).map fun r =>
    (r.1 + linearPenalty rows mu x, fun j => r.2 j + linearPenaltyGrad rows mu x j)

/-- One column of `find_mu`: the least absolute value of `c @ x` over the nonzero 0/1 vectors `x`, where `c`
are the nonzero entries of the column; `none` when there are none,
/repo/intvalpy/kernel/abstract.py:255-266. -/
def muColumn (c : List K) : Option K :=
  let c := c.filter (· ≠ 0)
  if c = [] then none
  else
    let dots := (product [0, 1] c.length).map fun x => |(List.zipWith (· * ·) c x).sum|
    match npAmin dots.tail with
    | .ok v => some v
    | .error _ => none

/-- The outcome of `numerator / min(denominator)` in numpy floats. -/
inductive Mu (K : Type*)
  | fin (v : K)
  | inf
  | nan
  deriving DecidableEq

/-- `find_mu`, /repo/intvalpy/kernel/abstract.py:252-269; `min([])` raises `ValueError`. -/
def findMu {n : ℕ} (rows : Rows K n) (numerator : K) : Except Err (Mu K) :=
  let dens := (List.finRange n).filterMap fun j => muColumn (rows.map fun r => r.1 j)
  match npAmin dens with
  | .error e => .error e
  | .ok d => .ok (if d = 0 then (if numerator = 0 then .nan else .inf) else .fin (numerator / d))

/-- `mu * np.sum(arr_p)` for the factor returned by `find_mu`, in numpy floats (`inf * 0 = nan`),
/repo/intvalpy/kernel/abstract.py:29. -/
def penaltyMu {n : ℕ} (rows : Rows K n) (mu : Mu K) (x : Fin n → K) : Mu K :=
  match mu with
  | .fin v => .fin (linearPenalty rows v x)
  | .inf => if linearPenalty rows 1 x = 0 then .nan else .inf
  | .nan => .nan

/-! ## ralgb5 -/

/-- Parameters of `ralgb5`, /repo/intvalpy/kernel/ralgb5.py:3.  `norm` is `np.linalg.norm` and `normalize v` is
`v / np.linalg.norm(v)`; both are arbitrary functions here, so nothing is assumed about a zero vector. -/
structure RalgPar (K : Type*) (n : ℕ) where
  tolx : K
  tolg : K
  tolf : K
  maxiter : ℕ
  alpha : K
  nsims : ℕ
  h0 : K
  nh : ℕ
  q1 : K
  q2 : K
  norm : (Fin n → K) → K
  normalize : (Fin n → K) → (Fin n → K)

/-- Local variables of `ralgb5` that survive an iteration, and the list of evaluated points (ghost). -/
structure RalgSt (K : Type*) (n : ℕ) where
  hs : K
  B : Fin n → Fin n → K
  vf : List K
  x : Fin n → K
  xr : Fin n → K
  fr : K
  g0 : Fin n → K
  nit : ℕ
  ncalls : ℕ
  evals : List (Fin n → K)

/-- What `ralgb5` returns, with the evaluated points. -/
structure RalgOut (K : Type*) (n : ℕ) where
  xr : Fin n → K
  fr : K
  nit : ℕ
  ncalls : ℕ
  ccode : ℕ
  evals : List (Fin n → K)

/-- The return statement. -/
def RalgSt.out {n : ℕ} (s : RalgSt K n) (code : ℕ) : RalgOut K n :=
  ⟨s.xr, s.fr, s.nit, s.ncalls, code, s.evals⟩

/-- `B.T @ g`. -/
def matTVec {n : ℕ} (B : Fin n → Fin n → K) (g : Fin n → K) : Fin n → K := fun i => ∑ j, B j i * g j
/-- `B @ g`. -/
def matVecF {n : ℕ} (B : Fin n → Fin n → K) (g : Fin n → K) : Fin n → K := fun i => ∑ j, B i j * g j

/-- Outcome of the line search: a return from inside it, or the values after it. -/
inductive Line (K : Type*) (n : ℕ)
  | ret (o : RalgOut K n)
  | done (s : RalgSt K n) (g1 : Fin n → K) (deltax : K) (cal : ℕ)

/-- The inner `while d > 0 and cal <= 500`, /repo/intvalpy/kernel/ralgb5.py:123-152; `fuel` counts the
remaining allowed passes (`501 - cal`). -/
def lineSearch {n : ℕ} (P : RalgPar K n) (calcfg : (Fin n → K) → K × (Fin n → K)) (dx : Fin n → K)
    (normdx : K) : ℕ → ℕ → K → (Fin n → K) → K → RalgSt K n → Line K n
  | 0, cal, deltax, g1, _, s => .done s g1 deltax cal
  | fuel + 1, cal, deltax, g1, d, s =>
      if 0 < d then
        let x : Fin n → K := fun i => s.x i - s.hs * dx i
        let deltax := deltax + s.hs * normdx
        let r := calcfg x
        let s : RalgSt K n := { s with x := x, ncalls := s.ncalls + 1, evals := s.evals ++ [x] }
        let s : RalgSt K n := if r.1 < s.fr then { s with fr := r.1, xr := x } else s
        if P.norm r.2 < P.tolg then .ret (s.out 2)
        else
          let s : RalgSt K n := if cal % P.nh = 0 then { s with hs := s.hs * P.q2 } else s
          lineSearch P calcfg dx normdx fuel (cal + 1) deltax r.2 (dotF dx r.2) s
      else .done s g1 deltax cal

/-- `np.roll(vf, 1)`: the last element moves to the front. -/
def npRoll (l : List K) : List K :=
  match l.getLast? with
  | none => []
  | some a => a :: l.dropLast

/-- The main loop, /repo/intvalpy/kernel/ralgb5.py:115-193; the first argument counts the remaining
iterations (`maxiter + 1 - nit`). -/
def ralgLoop {n : ℕ} (P : RalgPar K n) (calcfg : (Fin n → K) → K × (Fin n → K)) :
    ℕ → RalgSt K n → RalgOut K n
  | 0, s => s.out 4
  | k + 1, s =>
      let vf := s.vf.set (P.nsims - 1) s.fr
      let s : RalgSt K n := { s with vf := vf }
      let g1 := matTVec s.B s.g0
      let dx := matVecF s.B (P.normalize g1)
      let normdx := P.norm dx
      match lineSearch P calcfg dx normdx 501 0 0 g1 1 s with
      | .ret o => o
      | .done s g1 deltax cal =>
          if 500 < cal then s.out 5
          else
            let s : RalgSt K n := if cal = 1 then { s with hs := s.hs * P.q1 } else s
            if deltax < P.tolx then s.out 3
            else
              let dg := matTVec s.B fun i => g1 i - s.g0 i
              let xi := P.normalize dg
              let Bxi := matVecF s.B xi
              let w := 1 / P.alpha - 1
              let s : RalgSt K n := { s with
                B := fun i j => s.B i j + w * (Bxi i * xi j)
                g0 := g1 }
              let vf := npRoll s.vf
              let vf := vf.set 0 |s.fr - vf.headD 0|
              let s : RalgSt K n := { s with vf := vf }
              let deltaf := if 1 < |s.fr| then vf.sum / |s.fr| else vf.sum
              if deltaf < P.tolf then s.out 1
              else ralgLoop P calcfg k { s with nit := s.nit + 1 }

/-- `ralgb5`, /repo/intvalpy/kernel/ralgb5.py:95-193.  `big` stands for the initial `float('inf')` entries of
`vf`. -/
def ralgb5 {n : ℕ} (P : RalgPar K n) (big : K) (calcfg : (Fin n → K) → K × (Fin n → K)) (x0 : Fin n → K) :
    RalgOut K n :=
  let r := calcfg x0
  let s : RalgSt K n := ⟨P.h0, fun i j => if i = j then 1 else 0, List.replicate P.nsims big, x0, x0, r.1,
    r.2, 0, 1, [x0]⟩
  if P.norm r.2 < P.tolg then s.out 2
  else ralgLoop P calcfg (P.maxiter + 1) s

/-! ## maximize -/

/-- The three functionals. -/
inductive RecFun
  | tol
  | uni
  | uss
  deriving DecidableEq, Repr

/-- `recfunc.calcfg`, /repo/intvalpy/kernel/abstract.py:51. -/
def RecFun.calcfg (F : RecFun) (d : RecData K m n) (x : Fin n → K) : Except Err (K × (Fin n → K)) :=
  match F with
  | .tol => tolCalcfg d x
  | .uni => uniCalcfg d x
  | .uss => ussCalcfg d x

/-- `recfunc.value` in exact arithmetic, /repo/intvalpy/kernel/abstract.py:106-132. -/
def RecFun.value (F : RecFun) (A : Fin m → Fin n → Iv K) (b : Fin m → Iv K) (w : Fin m → K) (x : Fin n → K) :
    Except Err K :=
  match F with
  | .tol => tolValue Rnd.exact A b w x
  | .uni => uniValue Rnd.exact A b w x
  | .uss => ussValue A b w x

/-- The objective chosen by `optimize`, /repo/intvalpy/kernel/abstract.py:50-57; `con` are the rows and the
factor of the linear constraint, if one is given. -/
def RecFun.objective (F : RecFun) (d : RecData K m n) (con : Option (Rows K n × K)) (x : Fin n → K) :
    Except Err (K × (Fin n → K)) :=
  match con with
  | none => F.calcfg d x
  | some c => calcfgConstr (F.calcfg d) c.1 c.2 x

/-- The objective where it does not raise. -/
def RecFun.objTotal (F : RecFun) (d : RecData K m n) (con : Option (Rows K n × K)) (x : Fin n → K) :
    K × (Fin n → K) :=
  match F.objective d con x with
  | .ok r => r
  | .error _ => (0, fun _ => 0)

/-- `maximize`, /repo/intvalpy/kernel/abstract.py:34-74 and /repo/intvalpy/linear/Tol.py:48-58 (the same in
Uni.py, Uss.py): the returned value is `-fr`.  `x0` is the given or the default starting point (the default one
is computed by numpy's least squares and is arbitrary here).  An exception of the objective depends on the
shape of the system only, so it is raised by the first evaluation. -/
def RecFun.maximize (F : RecFun) (P : RalgPar K n) (big : K) (d : RecData K m n) (con : Option (Rows K n × K))
    (x0 : Fin n → K) : Except Err (RalgOut K n) :=
  match F.objective d con x0 with
  | .error e => .error e
  | .ok _ =>
      let o := ralgb5 P big (F.objTotal d con) x0
      .ok { o with fr := -o.fr }

/-! ## ChebNorm -/

/-- One row of `__calc_opt_A`, /repo/intvalpy/linear/ChebNorm.py:37-46.  `lp c lo hi` is the point returned by
cvxopt for `min c.a` over the box `lo <= a <= hi`. -/
def chebRow (lp : (Fin n → K) → (Fin n → K) → (Fin n → K) → Fin n → K) (x lo hi : Fin n → K) (bm : K) : Fin n → K :=
  let xmin := lp x lo hi
  let fmin := dotF xmin x
  let xmax := lp (fun j => -(x j)) lo hi
  let fmax := dotF xmax (fun j => -(x j))
  if fmax - bm ≤ bm - fmin then xmin else xmax

/-- The array whose maximum is taken, /repo/intvalpy/linear/ChebNorm.py:20-21, 54-56. -/
def chebArr (lp : (Fin n → K) → (Fin n → K) → (Fin n → K) → Fin n → K) (d : RecData K m n) (x : Fin n → K)
    (i : Fin m) : K :=
  d.weight i * (d.br i + |d.bm i - dotF (chebRow lp x (d.infA i) (d.supA i) (d.bm i)) x|)

/-- `ChebNorm.value`, /repo/intvalpy/linear/ChebNorm.py:15-26 (views as in `recData`). -/
def chebValue (lp : (Fin n → K) → (Fin n → K) → (Fin n → K) → Fin n → K) (A : Fin m → Fin n → Iv K)
    (b : Fin m → Iv K) (w : Fin m → K) (x : Fin n → K) : Except Err K :=
  npAmax (List.ofFn (chebArr lp (recData A b w) x))

/-- `np.argmax`: the first index of a greatest element. -/
def npArgmax (f : Fin m → K) : Except Err (Fin m) :=
  match (List.finRange m).argmax f with
  | some i => .ok i
  | none => .error .valueError

/-- `ChebNorm.calcfg`, /repo/intvalpy/linear/ChebNorm.py:49-59: the gradient does not contain the weight. -/
def chebCalcfg (lp : (Fin n → K) → (Fin n → K) → (Fin n → K) → Fin n → K) (d : RecData K m n) (x : Fin n → K) :
    Except Err (K × (Fin n → K)) :=
  match npArgmax (chebArr lp d x) with
  | .error e => .error e
  | .ok i =>
      let row := chebRow lp x (d.infA i) (d.supA i) (d.bm i)
      .ok (chebArr lp d x i, fun j => row j * npSign (dotF row x - d.bm i))

end IntvalPy
