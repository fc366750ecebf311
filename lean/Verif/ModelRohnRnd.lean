import Verif.ModelLinear

/-!
# `_Rohn_Uni` with rounded numpy arithmetic

The same algorithm as `rohnUni` of ModelLinear, with every operation of numpy on floats rounded to nearest (`R.nr`) and
the two products with interval matrices computed with directed rounding.  Products of float matrices are summed from
left to right (BLAS may use another order); overflow is not represented.
-/

set_option autoImplicit false

namespace IntvalPy
variable {K : Type*} [Field K] [LinearOrder K] [IsStrictOrderedRing K]

/-- Dot product of float vectors: products and partial sums rounded; the `@` of /repo/intvalpy/linear/Rohn.py:67-87. -/
def nrDot (R : Rnd K) {n : ℕ} (x y : Fin n → K) : K :=
  (List.ofFn fun k => R.nr (x k * y k)).foldl (fun s t => R.nr (s + t)) 0

/-- `np.linalg.inv(Amid.T @ Amid) @ Amid.T`, /repo/intvalpy/linear/Rohn.py:67, 75. -/
def pseudoInvR {n m : ℕ} (R : Rnd K) (inv : (Fin m → Fin m → K) → Except Err (Fin m → Fin m → K))
    (M : Fin n → Fin m → K) : Except Err (Fin m → Fin n → K) :=
  (inv fun i j => nrDot R (fun l => M l i) (fun l => M l j)).map fun I i k => nrDot R (I i) (M k)

/-- `G` of /repo/intvalpy/linear/Rohn.py:78. -/
def rohnGR {n m : ℕ} (R : Rnd K) (Q : Fin m → Fin n → K) (A : Fin n → Fin m → Iv K) (i j : Fin m) : K :=
  R.nr (|R.nr ((if i = j then 1 else 0) - nrDot R (Q i) fun k => (A k j).mid R)| +
    nrDot R (fun k => |Q i k|) fun k => (A k j).rad R)

/-- `g` of /repo/intvalpy/linear/Rohn.py:79. -/
def rohngR {n m : ℕ} (R : Rnd K) (Q : Fin m → Fin n → K) (A : Fin n → Fin m → Iv K) (b : Fin n → Iv K) (x0 : Fin m → K)
    (i : Fin m) : K :=
  R.nr (|nrDot R (Q i) fun k => R.nr (nrDot R (fun j => (A k j).mid R) x0 - (b k).mid R)| +
    nrDot R (fun k => |Q i k|) fun k => R.nr (nrDot R (fun j => (A k j).rad R) (fun j => |x0 j|) + (b k).rad R))

/-- The `while` loop, /repo/intvalpy/linear/Rohn.py:81-88. -/
def rohnLoopR {m : ℕ} (R : Rnd K) (G : Fin m → Fin m → K) (g : Fin m → K) (tol : K) :
    ℕ → (Fin m → K) → Option K → Except Err ((Fin m → K) × Option K)
  | 0, result, error => .ok (result, error)
  | fuel + 1, d, error =>
      if gsFar tol error then
        let result : Fin m → K := fun i => R.nr (R.nr (nrDot R (G i) d + g i) + tol)
        match npAmax (List.ofFn fun i => |R.nr (result i - d i)|) with
        | .error e => .error e
        | .ok err => rohnLoopR R G g tol fuel result (some err)
      else .ok (d, error)

/-- `_Rohn_Uni(A, b, tol, maxiter)`, /repo/intvalpy/linear/Rohn.py:64-89, with the last value of `error`. -/
def rohnUniR {n m : ℕ} (R : Rnd K) (inv : (Fin m → Fin m → K) → Except Err (Fin m → Fin m → K))
    (A : Fin n → Fin m → Iv K) (b : Fin n → Iv K) (tol : K) (maxiter : ℤ) : Except Err ((Fin m → Iv K) × Option K) :=
  match pseudoInvR R inv fun i j => (A i j).mid R with
  | .error e => .error e
  | .ok P =>
      let A' : Fin m → Fin m → Iv K := fun i l => dotEntry (dotNI R (List.ofFn (P i)) (List.ofFn fun k => A k l))
      let b' : Fin m → Iv K := fun i => dotEntry (dotNI R (List.ofFn (P i)) (List.ofFn b))
      match pseudoInvR R inv fun i j => (A' i j).mid R with
      | .error e => .error e
      | .ok Q =>
          let x0 : Fin m → K := fun i => nrDot R (Q i) fun k => (b' k).mid R
          match rohnLoopR R (rohnGR R Q A') (rohngR R Q A' b' x0) tol (maxiter + 1).toNat (fun _ => 0) none with
          | .error e => .error e
          | .ok (result, error) =>
              .ok (fun i => if R.nr (x0 i + result i) < R.nr (x0 i - result i) then
                  ⟨.classical, R.nr (x0 i + result i), R.nr (x0 i - result i)⟩
                else ⟨.classical, R.nr (x0 i - result i), R.nr (x0 i + result i)⟩, error)

end IntvalPy
