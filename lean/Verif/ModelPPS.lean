import Verif.ModelLinear
import Mathlib.LinearAlgebra.Matrix.Determinant.Basic

/-!
# PPS

/repo/intvalpy/linear/PPS.py.  Interval operations are rounded by `R`; operations of numpy on plain float arrays are exact
here (simplification); `HBR`, the interval inverse by `Gauss` and `np.linalg.solve` are parameters of the loop, and the
models of `HBR` and `Gauss` are put in by `pps`.
-/

set_option autoImplicit false
set_option linter.unusedSectionVars false

namespace IntvalPy

variable {K : Type*} [Field K] [LinearOrder K]

/-! ## The tags W, s, t -/

/-- The arrays `W`, `s`, `t` of a list element, /repo/intvalpy/linear/PPS.py:73-75: entries -1, 0, 1. -/
structure PpsTags (n : ℕ) where
  W : Fin n → Fin n → ℤ
  s : Fin n → ℤ
  t : Fin n → ℤ

/-- The variables of the loop that propagates the tags, /repo/intvalpy/linear/PPS.py:88-154. -/
structure PpsProp (n : ℕ) where
  tags : PpsTags n
  omegas : List (Fin n × Fin n)
  ks : List (Fin n)
  lambdas : List (Fin n)
  wc : Bool
  sc : Bool
  tc : Bool

/-- `a = s[k]*t[j]; if W[k, j] != a: Wc = True; Omega.append([k, j]); W[k, j] = a`,
/repo/intvalpy/linear/PPS.py:100-104, 110-114. -/
def PpsProp.setW {n : ℕ} (p : PpsProp n) (kj : Fin n × Fin n) : PpsProp n :=
  let a := p.tags.s kj.1 * p.tags.t kj.2
  { p with
    tags := { p.tags with W := fun i j => if i = kj.1 ∧ j = kj.2 then a else p.tags.W i j }
    omegas := if p.tags.W kj.1 kj.2 = a then p.omegas else p.omegas ++ [kj]
    wc := p.wc || !decide (p.tags.W kj.1 kj.2 = a) }

/-- `a = W[i1, i2] / t[i2]; if s[i1] != a: sc = True; K.append(i1); s[i1] = a`,
/repo/intvalpy/linear/PPS.py:119-124, 129-134.  (The entries are -1, 0 or 1 and the divisor is not 0.) -/
def PpsProp.setS {n : ℕ} (p : PpsProp n) (ij : Fin n × Fin n) : PpsProp n :=
  let a := p.tags.W ij.1 ij.2 / p.tags.t ij.2
  { p with
    tags := { p.tags with s := fun i => if i = ij.1 then a else p.tags.s i }
    ks := if p.tags.s ij.1 = a then p.ks else p.ks ++ [ij.1]
    sc := p.sc || !decide (p.tags.s ij.1 = a) }

/-- `a = W[i1, i2] / s[i1]; if t[i2] != a: tc = True; Lambda.append(i2); t[i2] = a`,
/repo/intvalpy/linear/PPS.py:139-144, 149-154. -/
def PpsProp.setT {n : ℕ} (p : PpsProp n) (ij : Fin n × Fin n) : PpsProp n :=
  let a := p.tags.W ij.1 ij.2 / p.tags.s ij.1
  { p with
    tags := { p.tags with t := fun j => if j = ij.2 then a else p.tags.t j }
    lambdas := if p.tags.t ij.2 = a then p.lambdas else p.lambdas ++ [ij.2]
    tc := p.tc || !decide (p.tags.t ij.2 = a) }

/-- `for k in K: for j in index`, /repo/intvalpy/linear/PPS.py:96-104. -/
def PpsProp.phase1 {n : ℕ} (p : PpsProp n) : PpsProp n :=
  (p.ks.flatMap fun k => ((List.finRange n).filter fun j => p.tags.t j ≠ 0).map fun j => (k, j)).foldl PpsProp.setW p

/-- `for l in Lambda: for j in index`, /repo/intvalpy/linear/PPS.py:106-114. -/
def PpsProp.phase2 {n : ℕ} (p : PpsProp n) : PpsProp n :=
  (p.lambdas.flatMap fun l => ((List.finRange n).filter fun j => p.tags.s j ≠ 0).map fun j => (j, l)).foldl PpsProp.setW p

/-- `for i1, i2 in Omega: if t[i2]`, /repo/intvalpy/linear/PPS.py:117-124. -/
def PpsProp.phase3 {n : ℕ} (p : PpsProp n) : PpsProp n :=
  p.omegas.foldl (fun p ij => if p.tags.t ij.2 ≠ 0 then p.setS ij else p) p

/-- `for l in Lambda: for j in range(n): if (not s[j]) and W[j, l]`, /repo/intvalpy/linear/PPS.py:126-134. -/
def PpsProp.phase4 {n : ℕ} (p : PpsProp n) : PpsProp n :=
  (p.lambdas.flatMap fun l => (List.finRange n).map fun j => (j, l)).foldl
    (fun p jl => if p.tags.s jl.1 = 0 ∧ p.tags.W jl.1 jl.2 ≠ 0 then p.setS jl else p) p

/-- `for i1, i2 in Omega: if s[i1]`, /repo/intvalpy/linear/PPS.py:137-144. -/
def PpsProp.phase5 {n : ℕ} (p : PpsProp n) : PpsProp n :=
  p.omegas.foldl (fun p ij => if p.tags.s ij.1 ≠ 0 then p.setT ij else p) p

/-- `for k in K: for j in range(n): if (not t[j]) and W[k, j]`, /repo/intvalpy/linear/PPS.py:146-154. -/
def PpsProp.phase6 {n : ℕ} (p : PpsProp n) : PpsProp n :=
  (p.ks.flatMap fun k => (List.finRange n).map fun j => (k, j)).foldl
    (fun p kj => if p.tags.t kj.2 = 0 ∧ p.tags.W kj.1 kj.2 ≠ 0 then p.setT kj else p) p

/-- A phase that is run only if its flag is set. -/
def PpsProp.when {n : ℕ} (p : PpsProp n) (flag : Bool) (f : PpsProp n → PpsProp n) : PpsProp n := if flag then f p else p

/-- The body of `while Wch or sch or tch`, /repo/intvalpy/linear/PPS.py:91-159; `Wch`, `sch`, `tch` are the flags of `p`. -/
def PpsProp.pass {n : ℕ} (p : PpsProp n) : PpsProp n :=
  let p0 : PpsProp n := { p with wc := false, sc := false, tc := false }
  let p1 := p0.when p.sc PpsProp.phase1
  let p2 := p1.when p.tc PpsProp.phase2
  let p3 := p2.when p.wc PpsProp.phase3
  let p4 := p3.when p.tc PpsProp.phase4
  let p5 := p4.when p.wc PpsProp.phase5
  p5.when p.sc PpsProp.phase6

/-- `while Wch or sch or tch`, /repo/intvalpy/linear/PPS.py:90-159, at most `fuel` passes; `none` if it has not ended
then. -/
def PpsProp.run {n : ℕ} : ℕ → PpsProp n → Option (PpsTags n)
  | 0, p => if p.wc || p.sc || p.tc then none else some p.tags
  | fuel + 1, p => if p.wc || p.sc || p.tc then PpsProp.run fuel p.pass else some p.tags

/-! ## The list -/

/-- A list element, /repo/intvalpy/linear/PPS.py:66-75. -/
structure PpsEl (K : Type*) (n : ℕ) where
  gamma : K
  Q : Fin n → Fin n → Iv K
  r : Fin n → Iv K
  Y : Fin n → Fin n → Iv K
  x : Fin n → Iv K
  tags : PpsTags n

/-- `bisect_left(g, v)` between `lo` and `hi`, as in the Python library; `fuel` bounds the number of halvings. -/
def ppsBisect (g : List K) (v : K) : ℕ → ℕ → ℕ → ℕ
  | 0, lo, _ => lo
  | fuel + 1, lo, hi =>
      if lo < hi then
        let mid := (lo + hi) / 2
        match g[mid]? with
        | none => lo
        | some w => if w < v then ppsBisect g v fuel (mid + 1) hi else ppsBisect g v fuel lo mid
      else lo

/-- `L.insert(bslindex, newcol)` for `L = L0 :: rest`, /repo/intvalpy/linear/PPS.py:176-178: not in front of `L0`. The
result is the new `rest`. -/
def ppsInsert {n : ℕ} (e L0 : PpsEl K n) (rest : List (PpsEl K n)) : List (PpsEl K n) :=
  let i := ppsBisect ((L0 :: rest).map PpsEl.gamma) e.gamma (rest.length + 1) 0 (rest.length + 1)
  rest.insertIdx ((if 0 < i then i else 1) - 1) e

/-- The interval `Interval(v, v)` stored by an item assignment of a number, /repo/intvalpy/kernel/real_intervals.py:226-229. -/
def pointIv (v : K) : Iv K := ⟨.classical, v, v⟩

/-- Parameters of `algo`. -/
structure PpsArg (K : Type*) [Field K] [LinearOrder K] (n : ℕ) where
  R : Rnd K
  hbr : (Fin n → Fin n → Iv K) → (Fin n → Iv K) → Except Err (Fin n → Iv K)
  inverse : (Fin n → Fin n → Iv K) → Except Err (Fin n → Fin n → Iv K)
  solve : (Fin n → Fin n → K) → (Fin n → K) → Except Err (Fin n → K)
  nu : Fin n
  tol : K
  fuel : ℕ

/-- An exception, or `none` if the tags are still changing after `fuel` passes. -/
abbrev PpsRes (α : Type*) := Except (Option Err) α

/-- `gamma < omega`, where `none` is `float('inf')`. -/
def ltOmega (g : K) : Option K → Bool
  | none => true
  | some w => decide (g < w)

/-- `split`, /repo/intvalpy/linear/PPS.py:80-182: the new list (without its first element `l0`) and `Mn[nu]`.  `start` holds
the tags with the lists and flags at the call.  (`cstL` is infinite and never changes, because `Lk` stays empty.) -/
def ppsSplit {n : ℕ} (P : PpsArg K n) (l0 : PpsEl K n) (omega : Option K) (ind fl : Bool)
    (Q : Fin n → Fin n → Iv K) (r : Fin n → Iv K) (start : PpsProp n) (rest : List (PpsEl K n)) :
    PpsRes (List (PpsEl K n) × K) :=
  match P.hbr Q r with
  | .error e => .error (some e)
  | .ok vx =>
      match P.solve (fun i j => (Q i j).mid P.R) (fun i => (r i).mid P.R) with
      | .error e => .error (some e)
      | .ok mn =>
          if ltOmega (vx P.nu).a omega then
            match (if ind then start.run P.fuel else some start.tags) with
            | none => .error none
            | some tags =>
                match (if fl then P.inverse Q else .ok l0.Y) with
                | .error e => .error (some e)
                | .ok Y => .ok (ppsInsert ⟨(vx P.nu).a, Q, r, Y, vx, tags⟩ l0 rest, mn P.nu)
          else .ok (rest, mn P.nu)

/-! ## One pass -/

/-- `dQ = asinterval(-np.outer(L[0].Y[nu], L[0].x))`, /repo/intvalpy/linear/PPS.py:200. -/
def ppsD {n : ℕ} (P : PpsArg K n) (e : PpsEl K n) (i j : Fin n) : Iv K := ((e.Y P.nu i).mul P.R (e.x j)).neg

/-- `X >= 0` and `X <= 0`, /repo/intvalpy/kernel/interval_arithmetics.pyx:215-217, 247-249. -/
def geZero (X : Iv K) : Bool := decide (0 ≤ X.a ∧ 0 ≤ X.b)

/-- See `geZero`. -/
def leZero (X : Iv K) : Bool := decide (X.a ≤ 0 ∧ X.b ≤ 0)

/-- The monotony test, /repo/intvalpy/linear/PPS.py:202-212: both assignments are made where the derivative is `[0, 0]`, the
second one finds the entry already a point. -/
def ppsMonotone {n : ℕ} (P : PpsArg K n) (e : PpsEl K n) : PpsEl K n :=
  { e with
    Q := fun i j =>
      let q := if geZero (ppsD P e i j) then pointIv (e.Q i j).a else e.Q i j
      if leZero (ppsD P e i j) then pointIv q.b else q
    r := fun i =>
      let q := if geZero (e.Y P.nu i) then pointIv (e.r i).a else e.r i
      if leZero (e.Y P.nu i) then pointIv q.b else q
    tags :=
      { W := fun i j => if leZero (ppsD P e i j) then -1 else if geZero (ppsD P e i j) then 1 else e.tags.W i j
        s := fun i => if leZero (e.Y P.nu i) then 1 else if geZero (e.Y P.nu i) then -1 else e.tags.s i
        t := e.tags.t } }

/-- All index pairs, row by row. -/
def allPairs (n : ℕ) : List (Fin n × Fin n) := (List.finRange n).flatMap fun i => (List.finRange n).map fun j => (i, j)

/-- `mat = dQ.mag * L[0].Q.wid` and its first maximum, /repo/intvalpy/linear/PPS.py:217-219; `d` was computed before the
monotony test, `e` is the element after it. -/
def ppsMat {n : ℕ} (P : PpsArg K n) (d : Fin n → Fin n → Iv K) (e : PpsEl K n) (ij : Fin n × Fin n) : K :=
  (d ij.1 ij.2).mag * (e.Q ij.1 ij.2).wid P.R

/-- `vector = L[0].Y[nu].mag * L[0].r.wid`, /repo/intvalpy/linear/PPS.py:221-223. -/
def ppsVec {n : ℕ} (P : PpsArg K n) (e : PpsEl K n) (i : Fin n) : K := (e.Y P.nu i).mag * (e.r i).wid P.R

/-- The refinement of `W` by a submatrix, /repo/intvalpy/linear/PPS.py:228-237. -/
def ppsRefine {n : ℕ} (g : PpsTags n) (im jm : Fin n) : PpsTags n :=
  match (allPairs n).find? fun kl => decide (¬(kl.1 = im ∧ kl.2 = jm) ∧ g.W kl.1 kl.2 ≠ 0 ∧ g.W kl.1 jm ≠ 0 ∧ g.W im kl.2 ≠ 0) with
  | none => g
  | some kl => { g with W := fun i j => if i = im ∧ j = jm then g.W kl.1 kl.2 * g.W kl.1 jm * g.W im kl.2 else g.W i j }

/-- A matrix with one entry replaced. -/
def setEntry {n : ℕ} {α : Type*} (Q : Fin n → Fin n → α) (i j : Fin n) (v : α) : Fin n → Fin n → α :=
  fun k l => if k = i ∧ l = j then v else Q k l

/-- A vector with one entry replaced. -/
def setComp {n : ℕ} {α : Type*} (r : Fin n → α) (i : Fin n) (v : α) : Fin n → α := fun k => if k = i then v else r k

/-- Tags with the lists of a call of `split` for a changed entry of the matrix. -/
def startW {n : ℕ} (g : PpsTags n) (i j : Fin n) (v : ℤ) : PpsProp n :=
  ⟨{ g with W := setEntry g.W i j v }, [(i, j)], [], [], true, false, false⟩

/-- Tags with the lists of a call of `split` for a changed component of the right-hand side. -/
def startS {n : ℕ} (g : PpsTags n) (i : Fin n) (v : ℤ) : PpsProp n :=
  ⟨{ g with s := setComp g.s i v }, [], [i], [], false, true, false⟩

/-- Tags without lists, for a call of `split` with `ind = 0`. -/
def startNone {n : ℕ} (g : PpsTags n) : PpsProp n := ⟨g, [], [], [], false, false, false⟩

/-- The two descendants of a split, /repo/intvalpy/linear/PPS.py:257-273, 288-304: the second call works on the list left by
the first one. -/
def ppsTwo {n : ℕ} (P : PpsArg K n) (l0 : PpsEl K n) (omega : Option K) (fl : Bool)
    (Q1 Q2 : Fin n → Fin n → Iv K) (r1 r2 : Fin n → Iv K) (st1 st2 : PpsProp n) (rest : List (PpsEl K n)) :
    PpsRes (List (PpsEl K n) × K) :=
  match ppsSplit P l0 omega true fl Q1 r1 st1 rest with
  | .error e => .error e
  | .ok p1 =>
      match ppsSplit P l0 omega true fl Q2 r2 st2 p1.1 with
      | .error e => .error e
      | .ok p2 => .ok (p2.1, min p1.2 p2.2)

/-- The systems-descendants of `l`, /repo/intvalpy/linear/PPS.py:242-314; `big` is the condition `z1 > z2`, `ij` and `i2` are
the places of the maxima. -/
def ppsDescend {n : ℕ} (P : PpsArg K n) (omega : Option K) (l : PpsEl K n) (big : Bool) (ij : Fin n × Fin n) (i2 : Fin n)
    (rest : List (PpsEl K n)) : PpsRes (List (PpsEl K n) × K) :=
  if big then
    let lo := setEntry l.Q ij.1 ij.2 (pointIv (l.Q ij.1 ij.2).a)
    let hi := setEntry l.Q ij.1 ij.2 (pointIv (l.Q ij.1 ij.2).b)
    if l.tags.W ij.1 ij.2 = 0 then
      ppsTwo P l omega true lo hi l.r l.r (startW l.tags ij.1 ij.2 1) (startW l.tags ij.1 ij.2 (-1)) rest
    else if l.tags.W ij.1 ij.2 = 1 then ppsSplit P l omega false true lo l.r (startNone l.tags) rest
    else ppsSplit P l omega false true hi l.r (startNone l.tags) rest
  else
    let lo := setComp l.r i2 (pointIv (l.r i2).a)
    let hi := setComp l.r i2 (pointIv (l.r i2).b)
    if l.tags.s i2 = 0 then
      ppsTwo P l omega false l.Q l.Q lo hi (startS l.tags i2 (-1)) (startS l.tags i2 1) rest
    else if l.tags.s i2 = 1 then ppsSplit P l omega false false l.Q hi (startNone l.tags) rest
    else ppsSplit P l omega false false l.Q lo (startNone l.tags) rest

/-- The body of the loop up to `mu`, /repo/intvalpy/linear/PPS.py:200-314, for `L = l :: rest`: the new `L[1:]` and `mu`. -/
def ppsBody {n : ℕ} (P : PpsArg K n) (omega : Option K) (l : PpsEl K n) (rest : List (PpsEl K n)) :
    PpsRes (List (PpsEl K n) × K) :=
  let d := ppsD P l
  let l1 := ppsMonotone P l
  match argmaxOn (ppsMat P d l1) (allPairs n), argmaxOn (ppsVec P l1) (List.finRange n) with
  | some ij, some i2 =>
      ppsDescend P omega { l1 with tags := ppsRefine l1.tags ij.1 ij.2 } (decide (ppsVec P l1 i2 < ppsMat P d l1 ij)) ij i2 rest
  | _, _ => .error (some .valueError)

/-- `if omega > mu: omega = mu`, /repo/intvalpy/linear/PPS.py:319-320. -/
def ppsOmega (mu : K) : Option K → K
  | none => mu
  | some w => if mu < w then mu else w

/-- `(L[0].Q.rad == 0).all()`, /repo/intvalpy/linear/PPS.py:195, 350. -/
def ppsExact {n : ℕ} (R : Rnd K) (Q : Fin n → Fin n → Iv K) : Bool :=
  (allPairs n).all fun ij => decide ((Q ij.1 ij.2).rad R = 0)

/-- `abs(omega - L[0].gamma) > tol`, /repo/intvalpy/linear/PPS.py:196. -/
def ppsFar (tol g : K) : Option K → Bool
  | none => true
  | some w => decide (tol < |w - g|)

/-- The loop, /repo/intvalpy/linear/PPS.py:196-353, with `k` passes left and `L = l :: rest`; `ocenka` is `none` before the
first assignment, and then `return ocenka` raises `UnboundLocalError`.  Next to the result stands the number of passes
left (`maxiter + 1 - nit`), which the program does not return. -/
def ppsLoop {n : ℕ} (P : PpsArg K n) : ℕ → Option K → Option K → PpsEl K n → List (PpsEl K n) → PpsRes (K × ℕ)
  | 0, _, ocenka, _, _ =>
      match ocenka with
      | none => .error (some .unboundLocalError)
      | some v => .ok (v, 0)
  | k + 1, omega, ocenka, l, rest =>
      if !(ppsExact P.R l.Q) && ppsFar P.tol l.gamma omega then
        match ppsBody P omega l rest with
        | .error e => .error e
        | .ok p =>
            let w := ppsOmega p.2 omega
            match p.1.filter fun e => decide (e.gamma ≤ w) with
            | [] => .ok (w, k + 1)
            | l' :: rest' => ppsLoop P k (some w) (some l'.gamma) l' rest'
      else
        match ocenka with
        | none => .error (some .unboundLocalError)
        | some v => .ok (v, k + 1)

/-- `algo(nu)`, /repo/intvalpy/linear/PPS.py:78-353, for the system `A x = b` and the interval inverse `invA`, with the number
of passes left; the condition `nit <= maxiter` allows `maxiter + 1` passes. -/
def ppsRun {n : ℕ} (P : PpsArg K n) (maxiter : ℤ) (A invA : Fin n → Fin n → Iv K) (b : Fin n → Iv K) : PpsRes (K × ℕ) :=
  match P.hbr A b with
  | .error e => .error (some e)
  | .ok vx =>
      ppsLoop P (maxiter + 1).toNat none none ⟨(vx P.nu).a, A, b, invA, vx, ⟨fun _ _ => 0, fun _ => 0, fun _ => 0⟩⟩ []

/-- The value returned by `algo(nu)`. -/
def ppsAlgo {n : ℕ} (P : PpsArg K n) (maxiter : ℤ) (A invA : Fin n → Fin n → Iv K) (b : Fin n → Iv K) : PpsRes K :=
  match ppsRun P maxiter A invA b with
  | .error e => .error e
  | .ok p => .ok p.1

/-! ## PPS -/

/-- The column `k` of the interval inverse: `Gauss(A, e)` with `e[k] = 1`, /repo/intvalpy/linear/PPS.py:168-170, 371-373. -/
def ppsColumn {n : ℕ} (R : Rnd K) (A : Fin n → Fin n → Iv K) (k : Fin n) : Except Err (Fin n → Iv K) :=
  gauss R A fun i => if i = k then pointIv 1 else zeroIv

/-- The value where there is no exception. -/
def okVec {n : ℕ} : Except Err (Fin n → Iv K) → Fin n → Iv K
  | .error _ => fun _ => zeroIv
  | .ok v => v

/-- The exception, if any. -/
def errVec {n : ℕ} : Except Err (Fin n → Iv K) → Option Err
  | .error e => some e
  | .ok _ => none

/-- The interval inverse, /repo/intvalpy/linear/PPS.py:166-171, 369-373. -/
def ppsInverse {n : ℕ} (R : Rnd K) (A : Fin n → Fin n → Iv K) : Except Err (Fin n → Fin n → Iv K) :=
  match (List.finRange n).findSome? fun k => errVec (ppsColumn R A k) with
  | some e => .error e
  | none => .ok fun i k => okVec (ppsColumn R A k) i

/-- The arguments of `algo(nu)` called by `PPS`. -/
def ppsArg {n : ℕ} (R : Rnd K) (inv : (Fin n → Fin n → K) → Except Err (Fin n → Fin n → K))
    (solve : (Fin n → Fin n → K) → (Fin n → K) → Except Err (Fin n → K)) (tol : K) (fuel : ℕ) (nu : Fin n) : PpsArg K n :=
  ⟨R, hbr R inv, ppsInverse R, solve, nu, tol, fuel⟩

/-- The components one after the other, /repo/intvalpy/linear/PPS.py:376-393. -/
def ppsBounds {n : ℕ} (f : Fin n → PpsRes K) : List (Fin n) → PpsRes (List K)
  | [] => .ok []
  | i :: is =>
      match f i with
      | .error e => .error e
      | .ok v =>
          match ppsBounds f is with
          | .error e => .error e
          | .ok vs => .ok (v :: vs)

/-- The right-hand sides of the two rounds of `for endint in [1, -1]: b = endint * b.copy()`,
/repo/intvalpy/linear/PPS.py:379-380, 388-389: the second factor is applied to the product of the first one. -/
def ppsPlus {n : ℕ} (R : Rnd K) (b : Fin n → Iv K) (i : Fin n) : Iv K := Iv.rmul R 1 (b i)

/-- See `ppsPlus`. -/
def ppsMinus {n : ℕ} (R : Rnd K) (b : Fin n → Iv K) (i : Fin n) : Iv K := Iv.rmul R (-1) (ppsPlus R b i)

/-- `PPS(A, b, tol, maxiter, nu)`, /repo/intvalpy/linear/PPS.py:356-395, for a square system of ordinary intervals (the copies
with `float` endpoints are the intervals themselves). -/
def pps {n : ℕ} (R : Rnd K) (inv : (Fin n → Fin n → K) → Except Err (Fin n → Fin n → K))
    (solve : (Fin n → Fin n → K) → (Fin n → K) → Except Err (Fin n → K)) (tol : K) (fuel : ℕ) (maxiter : ℤ)
    (A : Fin n → Fin n → Iv K) (b : Fin n → Iv K) (nu : Option (Fin n)) : PpsRes (List (Iv K)) :=
  if (Matrix.of fun i j => (A i j).mid R).det = 0 then .error (some .assertionError)
  else
    match ppsInverse R A with
    | .error e => .error (some e)
    | .ok invA =>
        let idx := nu.elim (List.finRange n) fun k => [k]
        match ppsBounds (fun k => ppsAlgo (ppsArg R inv solve tol fuel k) maxiter A invA (ppsPlus R b)) idx with
        | .error e => .error e
        | .ok lo =>
            match ppsBounds (fun k => ppsAlgo (ppsArg R inv solve tol fuel k) maxiter A invA (ppsMinus R b)) idx with
            | .error e => .error e
            | .ok hi => .ok (List.zipWith (fun l h => mkIv l (-h)) lo hi)

end IntvalPy
