import Verif.ModelViews
import Verif.ModelPSS

/-!
# `PSS` on start boxes with integer and float endpoints

`algo` reads `Q.a`, `Q.b` (in `ExactOmega`) and `Q.wid` through the array views
(/repo/intvalpy/kernel/real_intervals.py:27-41, 70-72), which are cast to the type of the first element.  The endpoints
of the boxes are those of the start box `V`, midpoints (floats), and the integer 0 written by line 238.
Simplification: finite endpoints, `A` and `b` exact.
-/

set_option autoImplicit false

namespace IntvalPy

/-- `X.wid`, /repo/intvalpy/kernel/interval_arithmetics.pyx:121-124: an integer when both endpoints are integers. -/
def widNum (R : Rnd ℚ) (X : FIv) : Num :=
  match X.a, X.b with
  | .int p, .int q => .int (q - p)
  | _, _ => .dbl (.fin ((ivRat X).wid R))

/-- `Q.wid` of an array, /repo/intvalpy/kernel/real_intervals.py:70-72. -/
def widView (R : Rnd ℚ) {m : ℕ} (Q : Fin m → FIv) : Except Err (Fin m → ℚ) :=
  match npVectorizeNum (List.ofFn fun j => widNum R (Q j)) with
  | .error e => .error e
  | .ok l => .ok fun j => numRat (l.getD j (.int 0))

/-- `Interval(l, r, sortQ=False)` of two numbers. -/
def mkFIv (l r : Num) : FIv := ⟨(mkIv (numRat l) (numRat r)).cls, l, r⟩

/-- The splitting of the box at component `k`, /repo/intvalpy/linear/PSS.py:236-242: the new endpoint is the integer 0 or
the midpoint, a float. -/
def pssSplitF (R : Rnd ℚ) {m : ℕ} (Q : Fin m → FIv) (k : Fin m) : (Fin m → FIv) × (Fin m → FIv) :=
  let X := ivRat (Q k)
  let c : Num := if X.a ≠ 0 ∧ -2 < R.nr (X.b / X.a) ∧ R.nr (X.b / X.a) < R.nr (-1 / 2) then .int 0
    else .dbl (.fin (X.mid R))
  (Function.update Q k (mkFIv (Q k).a c), Function.update Q k (mkFIv c (Q k).b))

/-- `ExactOmega(midA, radA, b, Q)` on the views `Q.a`, `Q.b`, /repo/intvalpy/linear/PSS.py:165-203 (read at lines
166-170, outside of the `try` blocks). -/
def exactOmegaF (R : Rnd ℚ) {n m : ℕ} (lp : LpSolver ℚ (PssRow n m) (Fin (m + 1))) (A : Fin n → Fin (m + 1) → Iv ℚ)
    (b : Fin n → Iv ℚ) (nu : Fin (m + 1)) (Vnu : Iv ℚ) (Q : Fin m → FIv) : Except Err ℚ :=
  match viewFin Q with
  | .error e => .error e
  | .ok Q' => .ok (exactOmega R lp A b nu Vnu Q')

/-- An element of the working list: `(Q, q, Ar)` (`ar = true`) or `(Q, q)`. -/
structure PssElF (m : ℕ) where
  Q : Fin m → FIv
  q : ℚ
  ar : Bool

/-- `L.insert(bisect_left(...), newcol)` (see `pssInsert`). -/
def pssInsertF {m : ℕ} (e : PssElF m) : List (PssElF m) → List (PssElF m)
  | [] => [e]
  | h :: t => if h.q < e.q then h :: pssInsertF e t else e :: h :: t

/-- The treatment of one half, /repo/intvalpy/linear/PSS.py:246-268 and 270-292. -/
def pssHalfF {n m : ℕ} (P : PssArg ℚ n m) (omega : ℚ) (L : List (PssElF m)) (Q : Fin m → FIv) :
    Except Err (List (PssElF m) × Option ℚ) :=
  let Q' : Fin m → Iv ℚ := fun j => ivRat (Q j)
  if (List.finRange m).any fun j => (Q' j).containsNum 0 then
    match omegaFn P.R (P.V P.nu) (pssRes P.R P.A P.b P.nu Q') (fun i => P.A i P.nu) with
    | .error e => .error e
    | .ok none => .ok (L, none)
    | .ok (some q) =>
        if q < omega then
          match omegaFn P.R (P.V P.nu) (pssResMid P.R P.A P.b P.nu Q') (fun i => P.A i P.nu) with
          | .error e => .error e
          | .ok eta => .ok (pssInsertF ⟨Q, q, true⟩ L, eta)
        else .ok (L, none)
  else
    match exactOmegaF P.R P.lp P.A P.b P.nu (P.V P.nu) Q with
    | .error e => .error e
    | .ok q => if q < omega then .ok (pssInsertF ⟨Q, q, false⟩ L, some q) else .ok (L, none)

/-- The new `omega` and list, lines 294-297. -/
def pssPruneF {m : ℕ} (omega : ℚ) (L : List (PssElF m)) : Option ℚ → ℚ × List (PssElF m)
  | none => (omega, L)
  | some e => if e < omega then (e, L.filter fun l => l.q ≤ e) else (omega, L)

/-- `return L[0][1]`. -/
def pssHeadF {m : ℕ} : List (PssElF m) → Except Err ℚ
  | [] => .error .indexError
  | l :: _ => .ok l.q

/-- The loop of `algo`, /repo/intvalpy/linear/PSS.py:231-311 (see `pssLoop`). -/
def pssLoopF {n m : ℕ} (P : PssArg ℚ n m) : ℕ → ℚ → List (PssElF m) → ℕ → (Fin m → FIv) → Except Err ℚ
  | 0, _, L, _, _ => pssHeadF L
  | fuel + 1, omega, L, item, Q =>
      match widView P.R Q with
      | .error e => .error e
      | .ok w =>
          match argmaxOn w (List.finRange m) with
          | none => .error .valueError
          | some k =>
              if P.tol ≤ w k then
                let L0 := L.eraseIdx item
                match pssHalfF P omega L0 (pssSplitF P.R Q k).1 with
                | .error e => .error e
                | .ok (L1, eta1) =>
                    match pssHalfF P omega L1 (pssSplitF P.R Q k).2 with
                    | .error e => .error e
                    | .ok (L2, eta2) =>
                        let r := pssPruneF omega L2 (etaMin eta1 eta2)
                        match r.2.findIdx? fun l => l.ar with
                        | none => pssHeadF r.2
                        | some item' =>
                            match r.2[item']? with
                            | none => pssHeadF r.2
                            | some l => pssLoopF P fuel r.1 r.2 item' l.Q
              else pssHeadF L

/-- `algo(_nu)`, /repo/intvalpy/linear/PSS.py:205-311, on the start box `V` of interval objects. -/
def pssAlgoF {n m : ℕ} (R : Rnd ℚ) (lp : LpSolver ℚ (PssRow n m) (Fin (m + 1))) (A : Fin n → Fin (m + 1) → Iv ℚ)
    (b : Fin n → Iv ℚ) (V : Fin (m + 1) → FIv) (nu : Fin (m + 1)) (tol : ℚ) (maxiter : ℤ) : Except Err ℚ :=
  if m = 0 then .error .valueError
  else
    let Q : Fin m → FIv := fun j => V (nu.succAbove j)
    pssLoopF ⟨R, lp, A, b, fun j => ivRat (V j), nu, tol⟩ (maxiter + 1).toNat (numRat (V nu).b)
      [⟨Q, numRat (V nu).a, false⟩] 0 Q

/-- `algo` for the listed components, in order, /repo/intvalpy/linear/PSS.py:319-323. -/
def pssAllF {n m : ℕ} (R : Rnd ℚ) (lp : LpSolver ℚ (PssRow n m) (Fin (m + 1))) (A : Fin n → Fin (m + 1) → Iv ℚ)
    (b : Fin n → Iv ℚ) (V : Fin (m + 1) → FIv) (tol : ℚ) (maxiter : ℤ) : List (Fin (m + 1)) → Except Err (List ℚ)
  | [] => .ok []
  | nu :: nus =>
      match pssAlgoF R lp A b V nu tol maxiter with
      | .error e => .error e
      | .ok q => (pssAllF R lp A b V tol maxiter nus).map (q :: ·)

/-- `PSS(A, b, x0, tol, maxiter, nu)` with the start boxes as interval objects, /repo/intvalpy/linear/PSS.py:313-334. -/
def pssF {n m : ℕ} (R : Rnd ℚ) (lp : LpSolver ℚ (PssRow n m) (Fin (m + 1)))
    (start : (Fin n → Iv ℚ) → Fin (m + 1) → FIv) (tol : ℚ) (maxiter : ℤ)
    (A : Fin n → Fin (m + 1) → Iv ℚ) (b : Fin n → Iv ℚ) (nu : Option (Fin (m + 1))) : Except Err (List (Iv ℚ)) :=
  let b1 : Fin n → Iv ℚ := fun i => (b i).rmul R 1
  let b2 : Fin n → Iv ℚ := fun i => (b1 i).rmul R (-1)
  match pssAllF R lp A b1 (start b1) tol maxiter (pssNus nu) with
  | .error e => .error e
  | .ok inf =>
      match pssAllF R lp A b2 (start b2) tol maxiter (pssNus nu) with
      | .error e => .error e
      | .ok sup => .ok (List.zipWith (fun l r => mkIv l (-r)) inf sup)

end IntvalPy
