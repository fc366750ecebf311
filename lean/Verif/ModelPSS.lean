import Verif.ModelLinear
import Verif.ModelObjects
import Mathlib.Data.Fin.Tuple.Basic

/-!
# The method PSS of partitioning the solution set

/repo/intvalpy/linear/PSS.py.  There are `m + 1` unknowns; `nu` is the estimated one and the boxes `Q` hold
the other `m` (`del(Q[_nu])`), addressed through `Fin.succAbove`.  Interval operations are rounded by `R`; point
operations of numpy (the linear programs) are exact here (simplification); `inf` is `none`.
-/

set_option autoImplicit false
set_option linter.unusedSectionVars false

namespace IntvalPy

variable {K : Type*} [Field K] [LinearOrder K]

/-- An interval with possibly infinite endpoints (`none`). -/
structure XIv (K : Type*) where
  lo : Option K
  hi : Option K
  deriving DecidableEq

/-- Division of two Python floats. -/
def fdiv (R : Rnd K) (x y : K) : Except Err K := if y = 0 then .error .zeroDivisionError else .ok (R.nr (x / y))

/-- `(-inf, x/y]`. -/
def leftRay (R : Rnd K) (x y : K) : Except Err (XIv K) := (fdiv R x y).map fun q => ⟨none, some q⟩
/-- `[x/y, inf)`. -/
def rightRay (R : Rnd K) (x y : K) : Except Err (XIv K) := (fdiv R x y).map fun q => ⟨some q, none⟩

/-- An array of two rays. -/
def twoRays (l r : Except Err (XIv K)) : Except Err (List (XIv K)) :=
  match l, r with
  | .ok l, .ok r => .ok [l, r]
  | .error e, _ => .error e
  | _, .error e => .error e

/-- The table `kdiv_result`, /repo/intvalpy/linear/PSS.py:73-83. -/
def kdivTable (R : Rnd K) (a b : Iv K) : ℕ → Except Err (List (XIv K))
  | 0 => (leftRay R a.b b.b).map fun q => [q]
  | 1 => (rightRay R a.b b.a).map fun q => [q]
  | 2 => twoRays (leftRay R a.b b.b) (rightRay R a.b b.a)
  | 3 => (rightRay R a.a b.b).map fun q => [q]
  | 4 => (leftRay R a.a b.a).map fun q => [q]
  | 5 => twoRays (leftRay R a.a b.a) (rightRay R a.a b.b)
  | _ => .error .indexError

/-- `kdiv(a, b, num_func)`, /repo/intvalpy/linear/PSS.py:69-92; one interval or an array of two. -/
def kdiv (R : Rnd K) (a b : Iv K) (num : ℕ) : Except Err (List (XIv K)) :=
  if a.containsNum 0 then .ok [⟨none, none⟩]
  else if a.b < 0 then kdivTable R a b num
  else if 0 < a.a then kdivTable R a b (3 + num)
  else .error .exception

/-- `index_classic_div`, /repo/intvalpy/linear/PSS.py:214. -/
def classicRow (R : Rnd K) (z : Iv K) : Bool := 0 < R.nr (z.a * z.b)

/-- `num_func`, /repo/intvalpy/linear/PSS.py:217-224. -/
def numFunc (R : Rnd K) (z : Iv K) : ℕ :=
  if classicRow R z then 0 else if z.a = 0 then 0 else if z.b = 0 then 1 else 2

/-- `y.a if x.a < y.a else x.a` with `x.a = l`, the lower endpoint of `y` possibly infinite. -/
def XIv.sup (y : XIv K) (l : K) : K := match y.lo with | none => l | some c => if l < c then c else l

/-- `x.b if x.b < y.b else y.b` with `x.b = h`. -/
def XIv.inf (y : XIv K) (h : K) : K := match y.hi with | none => h | some c => if h < c then h else c

/-- `intersect` of /repo/intvalpy/kernel/preprocessing.py:127-133 for a bounded (or NaN, `none`) interval and a
possibly unbounded one. -/
def interX (R : Rnd K) (y : XIv K) : Option (K × K) → Option (K × K)
  | none => none
  | some (l, h) =>
      if R.nr (y.sup l - y.inf h) ≤ interTol then
        (if y.inf h < y.sup l then some (y.inf h, y.sup l) else some (y.sup l, y.inf h))
      else none

/-- `intersection` with the broadcasting of line 135-143 of /repo/intvalpy/kernel/preprocessing.py. -/
def interR (R : Rnd K) (res : List (Option (K × K))) (ps : List (XIv K)) : List (Option (K × K)) :=
  match res, ps with
  | [r], ps => ps.map fun p => interX R p r
  | rs, [p] => rs.map (interX R p)
  | rs, ps => List.zipWith (fun r p => interX R p r) rs ps

/-- `np.nanmin` and `np.nanmax` of the lower endpoints. -/
def nanMin (res : List (Option (K × K))) : Option K :=
  match res.filterMap id with
  | [] => none
  | r :: rs => some (rs.foldl (fun m s => min m s.1) r.1)
/-- See `nanMin`. -/
def nanMax (res : List (Option (K × K))) : Option K :=
  match res.filterMap id with
  | [] => none
  | r :: rs => some (rs.foldl (fun m s => max m s.1) r.1)

/-- The value returned by `Omega`, /repo/intvalpy/linear/PSS.py:115-126 (`none` is `infinity`). -/
def omegaVal (two : Bool) (res : List (Option (K × K))) : Option K :=
  if two then
    if res.all fun r => r.isNone then none
    else if res.any fun r => r.isNone then nanMax res
    else nanMin res
  else
    match res with
    | [some r] => some r.1
    | _ => none

/-- The quotients of the rows whose coefficient has no zero, lines 96-99: an exception gives the empty list. -/
def classicDivs (R : Rnd K) {n : ℕ} (bAr Anu : Fin n → Iv K) : List (XIv K) :=
  match ((List.finRange n).filter fun k => classicRow R (Anu k)).mapM fun k => Iv.div R (bAr k) (Anu k) with
  | .ok ds => ds.map fun d => ⟨some d.a, some d.b⟩
  | .error _ => []

/-- `Omega(bAr, _nu, Anu, ...)`, /repo/intvalpy/linear/PSS.py:95-126; `Vnu` is `V[_nu]`. -/
def omegaFn (R : Rnd K) {n : ℕ} (Vnu : Iv K) (bAr Anu : Fin n → Iv K) : Except Err (Option K) :=
  match ((List.finRange n).filter fun k => !classicRow R (Anu k)).mapM fun k =>
      kdiv R (bAr k) (Anu k) (numFunc R (Anu k)) with
  | .error e => .error e
  | .ok pdiv =>
      let two := (List.finRange n).any fun k => numFunc R (Anu k) == 2
      let V : List (Option (K × K)) := [some (Vnu.a, Vnu.b)]
      match classicDivs R bAr Anu, pdiv with
      | d :: ds, pdiv =>
          let r := ds.foldl (fun r d => interR R r [d]) (interR R V [d])
          .ok (omegaVal two (pdiv.foldl (interR R) r))
      | [], p :: ps => .ok (omegaVal two ((p :: ps).foldl (interR R) (interR R V p)))
      | [], [] => .error .indexError

/-- Index of the rows of the linear program of `ExactOmega`. -/
abbrev PssRow (n m : ℕ) := Fin n ⊕ Fin n ⊕ (Fin (m + 1) ⊕ Fin (m + 1) ⊕ Fin (m + 1))

/-- The matrix `A_ub`, /repo/intvalpy/linear/PSS.py:150-151, 175-178, for the signs `S`. -/
def pssLpA (R : Rnd K) {n m : ℕ} (A : Fin n → Fin (m + 1) → Iv K) (S : Fin (m + 1) → K) : PssRow n m → Fin (m + 1) → K
  | .inl i, j => (A i j).mid R * S j - (A i j).rad R
  | .inr (.inl i), j => -((A i j).mid R * S j) - (A i j).rad R
  | .inr (.inr (.inl k)), j => if k = j then -S j else 0
  | .inr (.inr (.inr (.inl k))), j => if k = j then S j else 0
  | .inr (.inr (.inr (.inr k))), j => if k = j then -1 else 0

/-- The vector `b_ub`, /repo/intvalpy/linear/PSS.py:153, 169-170, 180-182. -/
def pssLpB {n m : ℕ} (b : Fin n → Iv K) (nu : Fin (m + 1)) (Q : Fin m → Iv K) : PssRow n m → K
  | .inl i => (b i).b
  | .inr (.inl i) => -(b i).a
  | .inr (.inr (.inl k)) => nu.insertNth (α := fun _ => K) (10 ^ 15) (fun j => -(Q j).a) k
  | .inr (.inr (.inr (.inl k))) => nu.insertNth (α := fun _ => K) (10 ^ 15) (fun j => (Q j).b) k
  | .inr (.inr (.inr (.inr _))) => 0

/-- One of the two linear programs of `ExactOmega`, with the sign `s` of the estimated component. -/
def pssLp (R : Rnd K) {n m : ℕ} (lp : LpSolver K (PssRow n m) (Fin (m + 1))) (A : Fin n → Fin (m + 1) → Iv K)
    (b : Fin n → Iv K) (nu : Fin (m + 1)) (Q : Fin m → Iv K) (s : K) : Except Err K :=
  let S : Fin (m + 1) → K := nu.insertNth (α := fun _ => K) s fun j => npSign (Q j).a
  let c : Fin (m + 1) → K := fun j => if j = nu then s else 0
  (lp c (pssLpA R A S) (pssLpB b nu Q)).map fun z => ∑ j, z j * c j

/-- `ExactOmega(midA, radA, b, Q)`, /repo/intvalpy/linear/PSS.py:165-203. -/
def exactOmega (R : Rnd K) {n m : ℕ} (lp : LpSolver K (PssRow n m) (Fin (m + 1))) (A : Fin n → Fin (m + 1) → Iv K)
    (b : Fin n → Iv K) (nu : Fin (m + 1)) (Vnu : Iv K) (Q : Fin m → Iv K) : K :=
  match pssLp R lp A b nu Q (npSign Vnu.a) with
  | .ok v => v
  | .error _ =>
      match pssLp R lp A b nu Q (npSign Vnu.b) with
      | .ok v => v
      | .error _ => 10 ^ 15

/-- An element of the working list: `(Q, q, Ar)` (`ar = true`) or `(Q, q)`. -/
structure PssEl (K : Type*) (m : ℕ) where
  Q : Fin m → Iv K
  q : K
  ar : Bool

/-- `L.insert(bisect_left(...), newcol)`: the position of `bisect_left` in a list sorted by `q`, in front of the first
element that is not smaller.  (That the list is sorted is proved.) -/
def pssInsert {m : ℕ} (e : PssEl K m) : List (PssEl K m) → List (PssEl K m)
  | [] => [e]
  | h :: t => if h.q < e.q then h :: pssInsert e t else e :: h :: t

/-- `WorkListA @ Q` and `WorkListb - WorkListA @ Q`, one row. -/
def pssRes (R : Rnd K) {n m : ℕ} (A : Fin n → Fin (m + 1) → Iv K) (b : Fin n → Iv K) (nu : Fin (m + 1))
    (Q : Fin m → Iv K) (i : Fin n) : Iv K :=
  (b i).sub R (dotEntry (dotII R (List.ofFn fun j => A i (nu.succAbove j)) (List.ofFn Q)))

/-- `WorkListb - WorkListA @ Q.mid`, one row. -/
def pssResMid (R : Rnd K) {n m : ℕ} (A : Fin n → Fin (m + 1) → Iv K) (b : Fin n → Iv K) (nu : Fin (m + 1))
    (Q : Fin m → Iv K) (i : Fin n) : Iv K :=
  (b i).sub R (dotEntry (dotIN R (List.ofFn fun j => A i (nu.succAbove j)) (List.ofFn fun j => (Q j).mid R)))

/-- The splitting of the box at component `k`, /repo/intvalpy/linear/PSS.py:233-242. -/
def pssSplit (R : Rnd K) {m : ℕ} (Q : Fin m → Iv K) (k : Fin m) : (Fin m → Iv K) × (Fin m → Iv K) :=
  let c := if (Q k).a ≠ 0 ∧ -2 < R.nr ((Q k).b / (Q k).a) ∧ R.nr ((Q k).b / (Q k).a) < R.nr (-1 / 2) then 0
    else (Q k).mid R
  (Function.update Q k (mkIv (Q k).a c), Function.update Q k (mkIv c (Q k).b))

/-- The arguments of `algo` and the variables of `PSS` that it reads. -/
structure PssArg (K : Type*) [Field K] [LinearOrder K] (n m : ℕ) where
  R : Rnd K
  lp : LpSolver K (PssRow n m) (Fin (m + 1))
  A : Fin n → Fin (m + 1) → Iv K
  b : Fin n → Iv K
  V : Fin (m + 1) → Iv K
  nu : Fin (m + 1)
  tol : K

/-- The treatment of one half `Q1` (or `Q2`), /repo/intvalpy/linear/PSS.py:246-268 and 270-292: the new list and
`eta1`. -/
def pssHalf {n m : ℕ} (P : PssArg K n m) (omega : K) (L : List (PssEl K m)) (Q : Fin m → Iv K) :
    Except Err (List (PssEl K m) × Option K) :=
  if (List.finRange m).any fun j => (Q j).containsNum 0 then
    match omegaFn P.R (P.V P.nu) (pssRes P.R P.A P.b P.nu Q) (fun i => P.A i P.nu) with
    | .error e => .error e
    | .ok none => .ok (L, none)
    | .ok (some q) =>
        if q < omega then
          match omegaFn P.R (P.V P.nu) (pssResMid P.R P.A P.b P.nu Q) (fun i => P.A i P.nu) with
          | .error e => .error e
          | .ok eta => .ok (pssInsert ⟨Q, q, true⟩ L, eta)
        else .ok (L, none)
  else
    let q := exactOmega P.R P.lp P.A P.b P.nu (P.V P.nu) Q
    if q < omega then .ok (pssInsert ⟨Q, q, false⟩ L, some q) else .ok (L, none)

/-- `eta = eta1 if eta1 <= eta2 else eta2`, line 294. -/
def etaMin : Option K → Option K → Option K
  | none, e => e
  | some a, none => some a
  | some a, some b => if a ≤ b then some a else some b

/-- The new `omega` and list, lines 294-297. -/
def pssPrune {m : ℕ} (omega : K) (L : List (PssEl K m)) : Option K → K × List (PssEl K m)
  | none => (omega, L)
  | some e => if e < omega then (e, L.filter fun l => l.q ≤ e) else (omega, L)

/-- `return L[0][1]`. -/
def pssHead {m : ℕ} : List (PssEl K m) → Except Err K
  | [] => .error .indexError
  | l :: _ => .ok l.q

/-- The loop of `algo`, /repo/intvalpy/linear/PSS.py:231-311: `fuel` passes are left, `item` is the position of the
current box. -/
def pssLoop {n m : ℕ} (P : PssArg K n m) : ℕ → K → List (PssEl K m) → ℕ → (Fin m → Iv K) → Except Err K
  | 0, _, L, _, _ => pssHead L
  | fuel + 1, omega, L, item, Q =>
      match argmaxOn (fun j => (Q j).wid P.R) (List.finRange m) with
      | none => .error .valueError
      | some k =>
          if P.tol ≤ (Q k).wid P.R then
            let L0 := L.eraseIdx item
            match pssHalf P omega L0 (pssSplit P.R Q k).1 with
            | .error e => .error e
            | .ok (L1, eta1) =>
                match pssHalf P omega L1 (pssSplit P.R Q k).2 with
                | .error e => .error e
                | .ok (L2, eta2) =>
                    let r := pssPrune omega L2 (etaMin eta1 eta2)
                    match r.2.findIdx? fun l => l.ar with
                    | none => pssHead r.2
                    | some item' =>
                        match r.2[item']? with
                        | none => pssHead r.2
                        | some l => pssLoop P fuel r.1 r.2 item' l.Q
          else pssHead L

/-- `algo(_nu)`, /repo/intvalpy/linear/PSS.py:205-311 (`np.amax` of an empty array, one unknown, raises
`ValueError`, also when no pass is made: the condition is evaluated first). -/
def pssAlgo {n m : ℕ} (P : PssArg K n m) (maxiter : ℤ) : Except Err K :=
  if m = 0 then .error .valueError
  else
    let Q : Fin m → Iv K := fun j => P.V (P.nu.succAbove j)
    pssLoop P (maxiter + 1).toNat (P.V P.nu).b [⟨Q, (P.V P.nu).a, false⟩] 0 Q

/-- `algo` for the listed components, in order. -/
def pssAll {n m : ℕ} (P : PssArg K n m) (maxiter : ℤ) : List (Fin (m + 1)) → Except Err (List K)
  | [] => .ok []
  | nu :: nus =>
      match pssAlgo { P with nu := nu } maxiter with
      | .error e => .error e
      | .ok q => (pssAll P maxiter nus).map (q :: ·)

/-- The components `algo` is called for, /repo/intvalpy/linear/PSS.py:315-316, 319, 326-327. -/
def pssNus {m : ℕ} : Option (Fin (m + 1)) → List (Fin (m + 1))
  | none => List.finRange (m + 1)
  | some k => [k]

/-- `PSS(A, b, x0, tol, maxiter, nu)`, /repo/intvalpy/linear/PSS.py:313-334; `start` is `StartBar(A, ·)`, called
with `b` and then with `-1 * b`. -/
def pss {n m : ℕ} (R : Rnd K) (lp : LpSolver K (PssRow n m) (Fin (m + 1)))
    (start : (Fin n → Iv K) → Fin (m + 1) → Iv K) (tol : K) (maxiter : ℤ)
    (A : Fin n → Fin (m + 1) → Iv K) (b : Fin n → Iv K) (nu : Option (Fin (m + 1))) : Except Err (List (Iv K)) :=
  let b1 : Fin n → Iv K := fun i => (b i).rmul R 1
  let b2 : Fin n → Iv K := fun i => (b1 i).rmul R (-1)
  match pssAll ⟨R, lp, A, b1, start b1, 0, tol⟩ maxiter (pssNus nu) with
  | .error e => .error e
  | .ok inf =>
      match pssAll ⟨R, lp, A, b2, start b2, 0, tol⟩ maxiter (pssNus nu) with
      | .error e => .error e
      | .ok sup => .ok (List.zipWith (fun l r => mkIv l (-r)) inf sup)

/-- The box `[-1e14, 1e14]` used when the start estimate fails, /repo/intvalpy/linear/PSS.py:141, 146. -/
def pssWide (m : ℕ) : Fin m → Iv K := fun _ => ⟨.classical, -10 ^ 14, 10 ^ 14⟩

/-- `StartBar` when `x0` is given, /repo/intvalpy/linear/PSS.py:134-135. -/
def startGiven {n m : ℕ} (x0 : Fin m → Iv K) : (Fin n → Iv K) → Fin m → Iv K := fun _ => x0

/-- `StartBar` for square systems without `x0`, /repo/intvalpy/linear/PSS.py:142-148. -/
def startGauss {n : ℕ} (R : Rnd K) (A : Fin n → Fin n → Iv K) : (Fin n → Iv K) → Fin n → Iv K := fun b =>
  match gauss R A b with
  | .ok V => V
  | .error _ => pssWide n

/-- `StartBar` for systems with more rows than columns without `x0`, /repo/intvalpy/linear/PSS.py:137-141
(`Rohn` with its default tolerance `1e-12` and 2000 passes). -/
def startRohn {n m : ℕ} (inv : (Fin m → Fin m → K) → Except Err (Fin m → Fin m → K)) (A : Fin n → Fin m → Iv K) :
    (Fin n → Iv K) → Fin m → Iv K := fun b =>
  match rohnUni inv A b (1 / 10 ^ 12) 2000 with
  | .ok V => V.1
  | .error _ => pssWide m

end IntvalPy
