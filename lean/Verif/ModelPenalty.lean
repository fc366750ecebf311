import Verif.ModelRecFun

/-!
# The penalty factor kept by a linear constraint

/repo/intvalpy/kernel/abstract.py: `optimize` computes the factor `mu` of a `LinearConstraint` on first use and stores
it in the object.
-/

set_option autoImplicit false

namespace IntvalPy

variable {K : Type*} [Field K] [LinearOrder K]

/-- A `LinearConstraint` object: its rows and the attribute `mu` (`none` is Python's `None`),
/repo/intvalpy/kernel/abstract.py:206, 246. -/
structure LinCon (K : Type*) (n : ℕ) where
  rows : Rows K n
  mu : Option (Mu K)

/-- `np.max(mag(A))`, /repo/intvalpy/kernel/abstract.py:54-55, /repo/intvalpy/kernel/utils.py (`mag` of an array). -/
def maxMag {m n : ℕ} (A : Fin m → Fin n → Iv K) : Except Err K :=
  npAmax (rowMajor fun i j => (A i j).mag)

/-- The effect of `optimize` on the constraint object, /repo/intvalpy/kernel/abstract.py:53-55, 268: `mu` is computed
only when it is `None`, and kept. -/
def LinCon.prepare {m n : ℕ} (c : LinCon K n) (A : Fin m → Fin n → Iv K) : Except Err (LinCon K n) :=
  match c.mu with
  | some _ => .ok c
  | none =>
      match maxMag A with
      | .error e => .error e
      | .ok M =>
          match findMu c.rows M with
          | .error e => .error e
          | .ok v => .ok { c with mu := some v }

/-- `maximize` with a constraint object, /repo/intvalpy/kernel/abstract.py:34-74: the outcome and the object
afterwards.  Simplification: with an infinite or undefined factor the arithmetic of numpy goes on with `inf` and
`nan`; this is not modelled further and reported as `.error none`. -/
def RecFun.maximizeCon {m n : ℕ} (F : RecFun) (P : RalgPar K n) (big : K) (A : Fin m → Fin n → Iv K)
    (b : Fin m → Iv K) (w : Fin m → K) (c : LinCon K n) (x0 : Fin n → K) :
    Except (Option Err) (RalgOut K n × LinCon K n) :=
  match c.prepare A with
  | .error e => .error (some e)
  | .ok c' =>
      match c'.mu with
      | some (.fin v) =>
          match F.maximize P big (recData A b w) (some (c'.rows, v)) x0 with
          | .error e => .error (some e)
          | .ok o => .ok (o, c')
      | _ => .error none

end IntvalPy
