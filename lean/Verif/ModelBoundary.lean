import Verif.ModelArray
import Mathlib.Algebra.Order.Floor.Ring
import Mathlib.Data.Rat.Floor
import Mathlib.Data.Fin.VecNotation
import Mathlib.Data.Fintype.Basic

/-!
# Boundary intervals and solution sets of inequality systems

/repo/intvalpy/kernel/preprocessing.py:17-44 and /repo/intvalpy/linear/boundary_intervals.py.
Point arithmetic is exact here.  Infinite coordinates are represented by `none`; drawing is left out.
-/

set_option autoImplicit false
set_option linter.unusedSectionVars false

namespace IntvalPy

variable {K : Type*} [Field K] [LinearOrder K] [FloorRing K]

/-- One inequality `a · x ≥ b` of a system with `d` unknowns: a row of `A` and an element of `b`. -/
abbrev Ineq (K : Type*) (d : Nat) := (Fin d → K) × K

/-- `np.rint`: the nearest integer, ties to even. -/
def rint (x : K) : ℤ :=
  let f := ⌊x⌋
  if x - f < 1 / 2 then f
  else if 1 / 2 < x - f then f + 1
  else if f % 2 = 0 then f else f + 1

/-- `np.around(x, decimals=12)`. -/
def around12 (x : K) : K := (rint (x * 10 ^ 12) : K) / 10 ^ 12

/-- Rows with distinct keys, each represented by its first occurrence and in the original order:
`np.unique(..., return_index=True)` followed by `sorted(index)`,
/repo/intvalpy/kernel/preprocessing.py:20-22 and 30-32.  `seen` are the keys met so far. -/
def firstOf {α β : Type*} [DecidableEq β] (key : α → β) : List β → List α → List α
  | _, [] => []
  | seen, r :: rs => if key r ∈ seen then firstOf key seen rs else r :: firstOf key (key r :: seen) rs

/-- `unique(a)` for points of the plane, /repo/intvalpy/kernel/preprocessing.py:17-22. -/
def uniquePts (P : List (K × K)) : List (K × K) :=
  firstOf id [] (P.map fun p => (around12 p.1, around12 p.2))

/-- Rounding of a system to twelve decimals, /repo/intvalpy/kernel/preprocessing.py:27-28, 37. -/
def aroundRow {d : Nat} (r : Ineq K d) : Ineq K d := (fun j => around12 (r.1 j), around12 r.2)

/-- `non_repeat(a, b)`, /repo/intvalpy/kernel/preprocessing.py:25-32: the key of a row is `a - b`. -/
def nonRepeat {d : Nat} (S : List (Ineq K d)) : List (Ineq K d) :=
  firstOf (fun r : Ineq K d => fun j => r.1 j - r.2) [] (S.map aroundRow)

/-- `np.sum(abs(a) <= 1e-12, axis=1)`, /repo/intvalpy/kernel/preprocessing.py:40, 43. -/
def smallCount {d : Nat} (r : Ineq K d) : Nat :=
  ((List.finRange d).filter fun j => decide (|r.1 j| ≤ 1 / 10 ^ 12)).length

/-- `clear_zero_rows(a, b, ndim)`, /repo/intvalpy/kernel/preprocessing.py:35-44. -/
def clearZeroRows {d : Nat} (ndim : Nat) (S : List (Ineq K d)) : List (Ineq K d) × Bool :=
  let S' := S.map aroundRow
  (S'.filter fun r => smallCount r != ndim,
    !(S'.any fun r => smallCount r == ndim && decide (0 < r.2)))

/-- `np.dot` of two plane vectors. -/
def dot2 (a x : K × K) : K := a.1 * x.1 + a.2 * x.2

/-- A row of the plane system. -/
abbrev Ineq2 (K : Type*) := (K × K) × K

/-- Result of the inner loop of `BoundaryIntervals` for one row. -/
inductive Scan (K : Type*) where
  /-- the loop ran to its end; the two elements of `q`, `none` is the infinite initial value -/
  | span (lo hi : Option K)
  /-- `break` with `si = False` -/
  | skip
  /-- `return []` -/
  | inconsistent
  deriving DecidableEq

/-- `q[0] > q[1]`, /repo/intvalpy/linear/boundary_intervals.py:41. -/
def qBad : Option K → Option K → Bool
  | some l, some h => decide (h < l)
  | _, _ => false

/-- The inner loop of `BoundaryIntervals`, /repo/intvalpy/linear/boundary_intervals.py:21-39. -/
def biScan (ai dotx p : K × K) (i : Nat) : List (Nat × Ineq2 K) → Option K → Option K → Scan K
  | [], lo, hi => .span lo hi
  | (k, (ak, bk)) :: rest, lo, hi =>
      if k = i then biScan ai dotx p i rest lo hi
      else
        let akx := dot2 ak dotx
        let c := dot2 ak p
        if c < 0 then
          let t := (bk - akx) / c
          let hi' := match hi with | some h => if h ≤ t then h else t | none => t
          biScan ai dotx p i rest lo (some hi')
        else if 0 < c then
          let t := (bk - akx) / c
          let lo' := match lo with | some l => if t < l then l else t | none => t
          biScan ai dotx p i rest (some lo') hi
        else if akx < bk then
          if 0 < dot2 ak ai then .skip else .inconsistent
        else biScan ai dotx p i rest lo hi

/-- One row of the matrix `S`: start, end (`none`: infinite coordinates) and the number of the row. -/
structure Edge (K : Type*) where
  start : Option (K × K)
  stop : Option (K × K)
  row : Nat
  deriving DecidableEq

/-- The foot of the perpendicular `dotx`, /repo/intvalpy/linear/boundary_intervals.py:17. -/
def foot (r : Ineq2 K) : K × K :=
  (r.1.1 * r.2 / dot2 r.1 r.1, r.1.2 * r.2 / dot2 r.1 r.1)

/-- The direction `p`, /repo/intvalpy/linear/boundary_intervals.py:19. -/
def dirOf (r : Ineq2 K) : K × K := (-r.1.2, r.1.1)

/-- `dotx + (p + 1e-301) * q`, /repo/intvalpy/linear/boundary_intervals.py:45-47; the constant is the
parameter `eps`.  In binary64 it changes only zero components of `p`; its purpose is to keep
`inf * 0` from arising. -/
def edgePt (eps : K) (r : Ineq2 K) (q : K) : K × K :=
  ((foot r).1 + ((dirOf r).1 + eps) * q, (foot r).2 + ((dirOf r).2 + eps) * q)

/-- The outer loop of `BoundaryIntervals`, /repo/intvalpy/linear/boundary_intervals.py:14-49.
`none` is the list `[]` returned early; `some S` the array.  A zero row makes numpy divide zero by
zero in line 17 (`nan`); callers remove such rows first, and the model reports it as an error. -/
def biOuter (eps : K) (all : List (Nat × Ineq2 K)) :
    List (Nat × Ineq2 K) → Except Err (Option (List (Edge K)))
  | [] => .ok (some [])
  | (i, r) :: rest =>
      if dot2 r.1 r.1 = 0 then .error .zeroDivisionError
      else
        match biScan r.1 (foot r) (dirOf r) i all none none with
        | .inconsistent => .ok none
        | .skip => biOuter eps all rest
        | .span lo hi =>
            match biOuter eps all rest with
            | .ok (some S) =>
                if qBad lo hi then .ok (some S)
                else .ok (some (⟨lo.map (edgePt eps r), hi.map (edgePt eps r), i⟩ :: S))
            | r => r

/-- The rows with their numbers. -/
def numbered {α : Type*} (S : List α) : List (Nat × α) := S.zipIdx.map fun p => (p.2, p.1)

/-- `BoundaryIntervals(A, b)`, /repo/intvalpy/linear/boundary_intervals.py:10-49. -/
def boundaryIntervals (eps : K) (S : List (Ineq2 K)) : Except Err (Option (List (Edge K))) :=
  biOuter eps (numbered S) (numbered S)

/-- `ParticularPoints(S, A, b)`, /repo/intvalpy/linear/boundary_intervals.py:52-67: the points and
whether some start is infinite. -/
def particularPoints (rows : List (Ineq2 K)) (S : List (Edge K)) : List (K × K) × Bool :=
  if S.any fun e => e.start.isNone then
    (S.filterMap fun e => (rows[e.row]?).map foot, true)
  else (S.filterMap fun e => e.start, false)

/-- `np.max(np.abs(u - v))`. -/
def maxDist (u v : K × K) : K := max |u.1 - v.1| |u.2 - v.2|

/-- A finite edge as used by `Intervals2Path`. -/
abbrev Seg (K : Type*) := (K × K) × (K × K)

/-- The search `for k in range(len(S))` with `index = k; break`, lines 75-78: the old value of `index`
is kept when no row matches. -/
def findStart (bs : K × K) (S : List (Seg K)) (old : Nat) : Nat :=
  match S.findIdx? fun s => decide (maxDist bs s.1 < 1 / 10 ^ 8) with
  | some k => k
  | none => old

/-- The loop of `Intervals2Path`, /repo/intvalpy/linear/boundary_intervals.py:74-88, with the fuel
bounding the number of rows left.  The list `P` is accumulated in order. -/
def pathLoop (bp : K × K) : Nat → K × K → Nat → List (Seg K) → List (K × K) → Except Err (List (K × K))
  | 0, _, _, _, P => .ok P
  | fuel + 1, bs, old, S, P =>
      if S.isEmpty then .ok P
      else
        let index := findStart bs S old
        match S[index]? with
        | none => .error .indexError
        | some s =>
            let es := s.2
            if 1 / 10 ^ 8 < maxDist bs es then
              if maxDist bp es < 1 / 10 ^ 8 then .ok (P ++ [es])
              else pathLoop bp fuel es index (S.eraseIdx index) (P ++ [es])
            else pathLoop bp fuel bs index (S.eraseIdx index) P

/-- `Intervals2Path(S)`, /repo/intvalpy/linear/boundary_intervals.py:70-88, for an array of finite
edges; `S[0, :2]` of an empty array raises `IndexError`. -/
def intervals2Path (S : List (Seg K)) : Except Err (List (K × K)) :=
  match S with
  | [] => .error .indexError
  | s :: _ => pathLoop s.1 S.length s.1 0 S [s.1]

/-- The rows `x ≥ lower`, `-x ≥ -upper` appended for the drawing window,
/repo/intvalpy/linear/boundary_intervals.py:199-205. -/
def windowRows (lo hi : K × K) : List (Ineq2 K) :=
  [((1, 0), lo.1), ((0, 1), lo.2), ((-1, 0), -hi.1), ((0, -1), -hi.2)]

/-- `np.min(PP, axis=0)` and `np.max(PP, axis=0)` for a nonempty list. -/
def ptsMin : List (K × K) → K × K
  | [] => (0, 0)
  | p :: ps => ps.foldl (fun m q => (min m.1 q.1, min m.2 q.2)) p
/-- See `ptsMin`. -/
def ptsMax : List (K × K) → K × K
  | [] => (0, 0)
  | p :: ps => ps.foldl (fun m q => (max m.1 q.1, max m.2 q.2)) p

/-- Finite edges; an infinite coordinate left over after the window has been added cannot occur. -/
def segsOf (S : List (Edge K)) : Option (List (Seg K)) :=
  S.mapM fun e => match e.start, e.stop with | some u, some v => some (u, v) | _, _ => none

/-- Result of a call together with the module-level list `__center_rm`. -/
abbrev Hist (K : Type*) (α : Type*) := Except Err α × List K

/-- The last part of `lineqs`: the path and the removal of repeated points, lines 209 and 221. -/
def lineqsFinish (S : Option (List (Edge K))) : Except Err (List (K × K)) :=
  match S with
  | none => .error .typeError
  | some S =>
      match segsOf S with
      | none => .error .exception
      | some segs => (intervals2Path segs).map uniquePts

/-- The centre and half-width `rm` of the particular points, lines 193-196. -/
def centerRm (P : List (K × K)) : (K × K) × K :=
  let mn := ptsMin P
  let mx := ptsMax P
  (((mn.1 + mx.1) / 2, (mn.2 + mx.2) / 2), max ((mx.1 - mn.1) / 2) ((mx.2 - mn.2) / 2))

/-- The corners of the window chosen when none is given, /repo/intvalpy/linear/boundary_intervals.py:199. -/
def autoWindow (P : List (K × K)) : (K × K) × (K × K) :=
  let c := centerRm P
  ((c.1.1 - 5 * c.2, c.1.2 - 5 * c.2), (c.1.1 + 5 * c.2, c.1.2 + 5 * c.2))

/-- `lineqs(A, b, show=False, bounds=bounds)`, /repo/intvalpy/linear/boundary_intervals.py:174-221, for
a matrix with two columns; the state is the module-level list `__center_rm`.  `cnmty` is computed by
`clear_zero_rows` (line 184) and not used. -/
def lineqs (eps : K) (rows : List (Ineq2 K)) (bounds : Option ((K × K) × (K × K))) (st : List K) :
    Hist K (List (K × K)) :=
  let cz := clearZeroRows (d := 2) 2 (rows.map fun r => (![r.1.1, r.1.2], r.2))
  let rows := cz.1.map fun r => (((r.1 0, r.1 1), r.2) : Ineq2 K)
  match boundaryIntervals eps rows with
  | .error e => (.error e, st)
  | .ok none => (.ok [], st)
  | .ok (some []) => (.ok [], st)
  | .ok (some S) =>
      let pp := particularPoints rows S
      if pp.2 then
        match bounds with
        | none =>
            let c := centerRm pp.1
            let st' := st ++ [max (|c.1.1| + 5 * c.2) (|c.1.2| + 5 * c.2)]
            let w := autoWindow pp.1
            (match boundaryIntervals eps (rows ++ windowRows w.1 w.2) with
              | .error e => .error e
              | .ok S' => lineqsFinish S', st')
        | some (lo, hi) =>
            (match boundaryIntervals eps (rows ++ windowRows lo hi) with
              | .error e => .error e
              | .ok S' => lineqsFinish S', st)
      else (lineqsFinish (some S), st)

/-- The two kinds of consistency, `'uni'` and `'tol'`, and anything else (an exception). -/
inductive Consistency where
  | uni
  | tol
  | other
  deriving DecidableEq

/-- `tmp`: the columns of negative sign are replaced by their duals,
/repo/intvalpy/linear/boundary_intervals.py:305-311 and 610-616. -/
def orthDual {n m : Nat} (A : Fin n → Fin m → Iv K) (ort : Fin m → Bool) (i : Fin n) (k : Fin m) : Iv K :=
  if ort k then A i k else (A i k).dual

/-- The system `-WorkListA x ≥ -WorkListb` of one orthant (`true` is the sign `1`),
/repo/intvalpy/linear/boundary_intervals.py:305-324 and 610-627, 635: first `n` rows, then `n` rows, then
`m` rows for the orthant.  `shift` is the change of the first `2n` elements of `WorkListb`, the identity in
the plane and lines 629-633 in space. -/
def orthantRows (shift : K → K) {n m : Nat} (A : Fin n → Fin m → Iv K) (b : Fin n → Iv K) (ort : Fin m → Bool)
    (cons : Consistency) : Except Err (List (Ineq K m)) :=
  let t := orthDual A ort
  let signs : List (Ineq K m) := List.ofFn fun k =>
    ((fun j => if j = k then (if ort k then 1 else -1) else 0), 0)
  match cons with
  | .uni => .ok (
      (List.ofFn fun i => ((fun k => -(t i k).a, -shift (b i).b) : Ineq K m)) ++
      (List.ofFn fun i => ((fun k => -(-(t i k).b), -shift (-(b i).a)) : Ineq K m)) ++ signs)
  | .tol => .ok (
      (List.ofFn fun i => ((fun k => -(-(t i k).a), -shift (-(b i).a)) : Ineq K m)) ++
      (List.ofFn fun i => ((fun k => -(t i k).b, -shift (b i).b) : Ineq K m)) ++ signs)
  | .other => .error .exception

/-- The shift of `IntLinIncR3`, /repo/intvalpy/linear/boundary_intervals.py:629-633. -/
def shift3 (t : K) : K := if 0 ≤ t then t - 1 / 10 ^ 15 else t + 1 / 10 ^ 15

/-- The four orthants in the order of line 296. -/
def orthants2 : List (Fin 2 → Bool) := [![true, true], ![false, true], ![false, false], ![true, false]]

/-- The local function `algo(bounds)` of `IntLinIncR2`,
/repo/intvalpy/linear/boundary_intervals.py:303-324. -/
def algo2 (eps : K) {n : Nat} (A : Fin n → Fin 2 → Iv K) (b : Fin n → Iv K) (cons : Consistency)
    (bounds : Option ((K × K) × (K × K))) :
    List (Fin 2 → Bool) → List K → Hist K (List (List (K × K)))
  | [], st => (.ok [], st)
  | o :: os, st =>
      match orthantRows id A b o cons with
      | .error e => (.error e, st)
      | .ok rows =>
          match lineqs eps (rows.map fun r => ((r.1 0, r.1 1), r.2)) bounds st with
          | (.error e, st) => (.error e, st)
          | (.ok v, st) =>
              match algo2 eps A b cons bounds os st with
              | (.error e, st) => (.error e, st)
              | (.ok vs, st) => (.ok (v :: vs), st)

/-- `max` of a nonempty list. -/
def listMax : List K → K
  | [] => 0
  | x :: xs => xs.foldl max x

/-- `IntLinIncR2(A, b, consistency, bounds, show=False)` for an interval matrix with two columns and an
interval vector, /repo/intvalpy/linear/boundary_intervals.py:296-349. -/
def intLinIncR2 (eps : K) {n : Nat} (A : Fin n → Fin 2 → Iv K) (b : Fin n → Iv K) (cons : Consistency)
    (bounds : Option ((K × K) × (K × K))) (st : List K) : Hist K (List (List (K × K))) :=
  match algo2 eps A b cons bounds orthants2 st with
  | (.error e, st) => (.error e, st)
  | (.ok vs, st) =>
      if st.length > 0 then
        let mx := listMax st
        match algo2 eps A b cons (some ((-mx, -mx), (mx, mx))) orthants2 st with
        | (.error e, st) => (.error e, st)
        | (.ok vs, _) => (.ok vs, [])
      else (.ok vs, [])

end IntvalPy
