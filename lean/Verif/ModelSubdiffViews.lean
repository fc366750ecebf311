import Verif.ModelSubdiff
import Verif.ModelViews

/-!
# `Subdiff` on interval objects

The start of the iteration is computed from the endpoint views of the right-hand side, the iteration itself from its
elements.
-/

set_option autoImplicit false

namespace IntvalPy

/-- `Subdiff(A, b)` for a square matrix of interval objects with finite endpoints,
/repo/intvalpy/linear/Subdiff.py:125-167: `b.a` and `b.b` of line 132 are the endpoint views (C63), `A.mid` of line 39
and `A[i, j]`, `b[i]` in the loop are read element by element.  Real arithmetic. -/
def subdiffObj {n : ℕ} (solve : Solver ℚ n) (A : Fin n → Fin n → FIv) (b : Fin n → FIv)
    (tol : ℚ) (maxiter : ℤ) (tau normMin : ℚ) : Except Err (Fin n → Iv ℚ) :=
  match viewFin b with
  | .error e => .error e
  | .ok v =>
      match solve (superMatrix Rnd.exact fun i j => ivRat (A i j)) (Sum.elim (fun i => (v i).a) (fun i => (v i).b)) with
      | .error e => .error e
      | .ok x0 =>
          (subdiffLoop Rnd.exact solve (fun i j => ivRat (A i j)) (fun i => ivRat (b i)) tol tau normMin
            (maxiter + 1).toNat x0).map fun xx j => ivAt xx j

end IntvalPy
