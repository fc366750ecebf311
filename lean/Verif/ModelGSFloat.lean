import Verif.ModelInter
import Verif.ModelDistF
import Verif.ModelUtils

/-!
# The iteration of `Gauss_Seidel` on the float level

/repo/intvalpy/linear/Gauss_Seidel.py:57-73, after the preconditioning and the test for an H-matrix, which work as in
`gaussSeidel` (ModelLinear).  Ends may be integers, floats, infinite or NaN.
-/

set_option autoImplicit false

namespace IntvalPy
open FIv M

/-- The products `A[k, :k] * result[:k]` of two slices, /repo/intvalpy/linear/Gauss_Seidel.py:64. -/
def mulsN : List (FIv × FIv) → M (List FIv)
  | [] => return []
  | p :: ps => do
      let z ← FIv.mul p.1 p.2
      let zs ← mulsN ps
      return z :: zs

/-- The builtin `sum` from the second element on, /repo/intvalpy/linear/Gauss_Seidel.py:64. -/
def sumFromN (acc : FIv) : List FIv → M FIv
  | [] => return acc
  | h :: t => do
      let s ← FIv.add acc h
      sumFromN s t

/-- `X - sum(l)`: the builtin `sum` starts from the number `0`, /repo/intvalpy/linear/Gauss_Seidel.py:64. -/
def subSumN (X : FIv) : List FIv → M FIv
  | [] => FIv.subNum X (.int 0)
  | h :: t => do
      let a ← radd (.int 0) h
      let S ← sumFromN a t
      FIv.sub X S

/-- `new_bar`, /repo/intvalpy/linear/Gauss_Seidel.py:64. -/
def gsBarN {n : ℕ} (A : Fin n → Fin n → FIv) (b result pre : Fin n → FIv) (k : Fin n) : M FIv := do
  let P ← mulsN (((List.finRange n).filter fun j => j < k).map fun j => (A k j, result j))
  let u ← subSumN (b k) P
  let Q ← mulsN (((List.finRange n).filter fun j => k < j).map fun j => (A k j, pre j))
  let v ← subSumN u Q
  FIv.div v (A k k)

/-- The loop over `k`, /repo/intvalpy/linear/Gauss_Seidel.py:63-68. -/
def gsSweepN {n : ℕ} (A : Fin n → Fin n → FIv) (b pre : Fin n → FIv) : List (Fin n) → (Fin n → FIv) → M (Fin n → FIv)
  | [], result => return result
  | k :: ks, result => do
      let bar ← gsBarN A b result pre k
      let X ← (pre k).intersect bar
      let bad ← op fun _ => isnanF X
      if bad then raise .exception else gsSweepN A b pre ks (Function.update result k X)

/-- `distance >= tol`, with `np.inf` as `none`, /repo/intvalpy/linear/Gauss_Seidel.py:62; false for NaN. -/
def gsFarN (tol : Num) : Option Num → Bool
  | none => true
  | some d => tol.le d

/-- The `while` loop, /repo/intvalpy/linear/Gauss_Seidel.py:62-72. -/
def gsLoopN {n : ℕ} (A : Fin n → Fin n → FIv) (b : Fin n → FIv) (tol : Num) :
    ℕ → Option Num → (Fin n → FIv) → (Fin n → FIv) → M (Fin n → FIv)
  | 0, _, _, result => return result
  | fuel + 1, distance, pre, result =>
      if gsFarN tol distance then do
        let r ← gsSweepN A b pre (List.finRange n) result
        let d ← FIv.distVec (List.ofFn fun i => (r i, pre i))
        gsLoopN A b tol fuel (some d) r r
      else return result

/-- The iteration from the start box `x0` for the preconditioned system, /repo/intvalpy/linear/Gauss_Seidel.py:57-73. -/
def gsRunN {n : ℕ} (A : Fin n → Fin n → FIv) (b x0 : Fin n → FIv) (tol : Num) (maxiter : ℤ) : M (Fin n → FIv) :=
  gsLoopN A b tol (maxiter + 1).toNat none x0 fun _ => ⟨.classical, .int 0, .int 0⟩

end IntvalPy
