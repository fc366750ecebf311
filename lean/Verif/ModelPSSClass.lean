import Verif.ModelPSSViews

/-!
# `PSS` with the classification of the rows read from the array views of a column of `A`

`algo` decides by `np.where(Anu.a*Anu.b > 0)` (/repo/intvalpy/linear/PSS.py:213-215) which rows are divided by the
ordinary division and which by the division of Kahan.  `Anu.a` and `Anu.b` are array views, cast to the number type of
their first element, and the product of two `int64` arrays wraps around.  Everywhere else the elements of `A` enter
through interval operations or through `A.mid`, `A.rad`.  The definitions below are those of `ModelPSS` with the
decision `cl nu i` (row `i` of column `nu` is divided ordinarily) as a parameter.
-/

set_option autoImplicit false
set_option linter.unusedSectionVars false

namespace IntvalPy

variable {K : Type*} [Field K] [LinearOrder K]

/-- The value of an `int64` product: reduction to the range `[-2^63, 2^63)`. -/
def wrap64 (z : ℤ) : ℤ := (z + 2 ^ 63) % 2 ^ 64 - 2 ^ 63

/-- `x*y > 0` for entries of two numeric arrays. -/
def mulPos (R : Rnd ℚ) : Num → Num → Bool
  | .int p, .int q => 0 < wrap64 (p * q)
  | x, y => 0 < R.nr (numRat x * numRat y)

/-- `Anu.a*Anu.b > 0` for the column `Anu`, /repo/intvalpy/linear/PSS.py:214 (finite endpoints; integers beyond `int64`
are not modelled). -/
def viewClass (R : Rnd ℚ) {n : ℕ} (Anu : Fin n → FIv) : Except Err (Fin n → Bool) :=
  match arrA (List.ofFn Anu), arrB (List.ofFn Anu) with
  | .error e, _ => .error e
  | _, .error e => .error e
  | .ok la, .ok lb => .ok fun i => mulPos R (la.getD i (.int 0)) (lb.getD i (.int 0))

/-- `num_func`, /repo/intvalpy/linear/PSS.py:217-224, given the decision for the row. -/
def numFuncC (cl : Bool) (z : Iv K) : ℕ := if cl then 0 else if z.a = 0 then 0 else if z.b = 0 then 1 else 2

/-- The quotients of the rows divided ordinarily, lines 96-99 (see `classicDivs`). -/
def classicDivsC (R : Rnd K) {n : ℕ} (cl : Fin n → Bool) (bAr Anu : Fin n → Iv K) : List (XIv K) :=
  match ((List.finRange n).filter fun k => cl k).mapM fun k => Iv.div R (bAr k) (Anu k) with
  | .ok ds => ds.map fun d => ⟨some d.a, some d.b⟩
  | .error _ => []

/-- `Omega(bAr, _nu, Anu, ...)`, /repo/intvalpy/linear/PSS.py:95-126 (see `omegaFn`). -/
def omegaFnC (R : Rnd K) {n : ℕ} (cl : Fin n → Bool) (Vnu : Iv K) (bAr Anu : Fin n → Iv K) : Except Err (Option K) :=
  match ((List.finRange n).filter fun k => !cl k).mapM fun k => kdiv R (bAr k) (Anu k) (numFuncC (cl k) (Anu k)) with
  | .error e => .error e
  | .ok pdiv =>
      let two := (List.finRange n).any fun k => numFuncC (cl k) (Anu k) == 2
      let V : List (Option (K × K)) := [some (Vnu.a, Vnu.b)]
      match classicDivsC R cl bAr Anu, pdiv with
      | d :: ds, pdiv =>
          let r := ds.foldl (fun r d => interR R r [d]) (interR R V [d])
          .ok (omegaVal two (pdiv.foldl (interR R) r))
      | [], p :: ps => .ok (omegaVal two ((p :: ps).foldl (interR R) (interR R V p)))
      | [], [] => .error .indexError

/-- The treatment of one half, /repo/intvalpy/linear/PSS.py:246-268 and 270-292 (see `pssHalf`). -/
def pssHalfC {n m : ℕ} (cl : Fin (m + 1) → Fin n → Bool) (P : PssArg K n m) (omega : K) (L : List (PssEl K m))
    (Q : Fin m → Iv K) : Except Err (List (PssEl K m) × Option K) :=
  if (List.finRange m).any fun j => (Q j).containsNum 0 then
    match omegaFnC P.R (cl P.nu) (P.V P.nu) (pssRes P.R P.A P.b P.nu Q) (fun i => P.A i P.nu) with
    | .error e => .error e
    | .ok none => .ok (L, none)
    | .ok (some q) =>
        if q < omega then
          match omegaFnC P.R (cl P.nu) (P.V P.nu) (pssResMid P.R P.A P.b P.nu Q) (fun i => P.A i P.nu) with
          | .error e => .error e
          | .ok eta => .ok (pssInsert ⟨Q, q, true⟩ L, eta)
        else .ok (L, none)
  else
    let q := exactOmega P.R P.lp P.A P.b P.nu (P.V P.nu) Q
    if q < omega then .ok (pssInsert ⟨Q, q, false⟩ L, some q) else .ok (L, none)

/-- The loop of `algo`, /repo/intvalpy/linear/PSS.py:231-311 (see `pssLoop`). -/
def pssLoopC {n m : ℕ} (cl : Fin (m + 1) → Fin n → Bool) (P : PssArg K n m) :
    ℕ → K → List (PssEl K m) → ℕ → (Fin m → Iv K) → Except Err K
  | 0, _, L, _, _ => pssHead L
  | fuel + 1, omega, L, item, Q =>
      match argmaxOn (fun j => (Q j).wid P.R) (List.finRange m) with
      | none => .error .valueError
      | some k =>
          if P.tol ≤ (Q k).wid P.R then
            let L0 := L.eraseIdx item
            match pssHalfC cl P omega L0 (pssSplit P.R Q k).1 with
            | .error e => .error e
            | .ok (L1, eta1) =>
                match pssHalfC cl P omega L1 (pssSplit P.R Q k).2 with
                | .error e => .error e
                | .ok (L2, eta2) =>
                    let r := pssPrune omega L2 (etaMin eta1 eta2)
                    match r.2.findIdx? fun l => l.ar with
                    | none => pssHead r.2
                    | some item' =>
                        match r.2[item']? with
                        | none => pssHead r.2
                        | some l => pssLoopC cl P fuel r.1 r.2 item' l.Q
          else pssHead L

/-- `algo(_nu)`, /repo/intvalpy/linear/PSS.py:205-311 (see `pssAlgo`). -/
def pssAlgoC {n m : ℕ} (cl : Fin (m + 1) → Fin n → Bool) (P : PssArg K n m) (maxiter : ℤ) : Except Err K :=
  if m = 0 then .error .valueError
  else
    let Q : Fin m → Iv K := fun j => P.V (P.nu.succAbove j)
    pssLoopC cl P (maxiter + 1).toNat (P.V P.nu).b [⟨Q, (P.V P.nu).a, false⟩] 0 Q

/-- `algo` for the listed components, in order. -/
def pssAllC {n m : ℕ} (cl : Fin (m + 1) → Fin n → Bool) (P : PssArg K n m) (maxiter : ℤ) :
    List (Fin (m + 1)) → Except Err (List K)
  | [] => .ok []
  | nu :: nus =>
      match pssAlgoC cl { P with nu := nu } maxiter with
      | .error e => .error e
      | .ok q => (pssAllC cl P maxiter nus).map (q :: ·)

/-- `PSS(A, b, x0, tol, maxiter, nu)`, /repo/intvalpy/linear/PSS.py:313-334 (see `pss`). -/
def pssC {n m : ℕ} (R : Rnd K) (cl : Fin (m + 1) → Fin n → Bool) (lp : LpSolver K (PssRow n m) (Fin (m + 1)))
    (start : (Fin n → Iv K) → Fin (m + 1) → Iv K) (tol : K) (maxiter : ℤ)
    (A : Fin n → Fin (m + 1) → Iv K) (b : Fin n → Iv K) (nu : Option (Fin (m + 1))) : Except Err (List (Iv K)) :=
  let b1 : Fin n → Iv K := fun i => (b i).rmul R 1
  let b2 : Fin n → Iv K := fun i => (b1 i).rmul R (-1)
  match pssAllC cl ⟨R, lp, A, b1, start b1, 0, tol⟩ maxiter (pssNus nu) with
  | .error e => .error e
  | .ok inf =>
      match pssAllC cl ⟨R, lp, A, b2, start b2, 0, tol⟩ maxiter (pssNus nu) with
      | .error e => .error e
      | .ok sup => .ok (List.zipWith (fun l r => mkIv l (-r)) inf sup)

/-- The decision of line 214 for column `nu` of a matrix of interval objects. -/
def objCls (R : Rnd ℚ) {n m : ℕ} (A : Fin n → Fin m → FIv) (nu : Fin m) (i : Fin n) : Bool :=
  match viewClass R (fun k => A k nu) with
  | .ok c => c i
  | .error _ => false

/-- `PSS(A, b, x0, tol, maxiter, nu)` on a matrix of interval objects with finite endpoints,
/repo/intvalpy/linear/PSS.py:205-334; the endpoints of `b` are floats after line 314 (`endint * b.copy()`).
Simplification: a failing view of a column is reported before the work on the columns before it. -/
def pssObj {n m : ℕ} (R : Rnd ℚ) (lp : LpSolver ℚ (PssRow n m) (Fin (m + 1)))
    (start : (Fin n → Iv ℚ) → Fin (m + 1) → Iv ℚ) (tol : ℚ) (maxiter : ℤ)
    (A : Fin n → Fin (m + 1) → FIv) (b : Fin n → Iv ℚ) (nu : Option (Fin (m + 1))) : Except Err (List (Iv ℚ)) :=
  match (pssNus nu).mapM fun k => viewClass R (fun i => A i k) with
  | .error e => .error e
  | .ok _ => pssC R (objCls R A) lp start tol maxiter (fun i j => ivRat (A i j)) b nu

end IntvalPy
