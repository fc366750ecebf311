import Verif.ModelLinear

/-!
# HBR with a matrix on the right
-/

set_option autoImplicit false

namespace IntvalPy

variable {K : Type*} [Field K] [LinearOrder K] [IsStrictOrderedRing K]

/-- `HBR(A, b)` for a two-dimensional `b`, /repo/intvalpy/linear/HBR.py:26-52 and 56-59.  The new `v` is a vector of ones, so that `d @ v`
in line 58 is the sum of the diagonal of `B`, one number, and `(dA + Interval(-alpha, alpha)) @ v` in line 59 is the sum of all
diagonal entries, one interval.  The array is divided by this interval in `Interval.__array_ufunc__`, that is, multiplied by the
reciprocal (real_intervals.py:270-276, interval_arithmetics.pyx:354-370).
Simplification: as in `hbr`, a zero divisor in the point arithmetic is reported as an error. -/
def hbrMat {n m : ℕ} (R : Rnd K) (inv : (Fin n → Fin n → K) → Except Err (Fin n → Fin n → K))
    (A : Fin n → Fin n → Iv K) (b : Fin n → Fin m → Iv K) : Except Err (Fin n → Fin m → Iv K) :=
  match inv fun i j => (A i j).mid R with
  | .error e => .error e
  | .ok C =>
      let A' := (Precond.point C).mulMat R A
      let b' := (Precond.point C).mulMat R b
      let M := compmat A'
      match inv M with
      | .error e => .error e
      | .ok B =>
          let v : Fin n → K := fun i => |∑ j, B i j|
          let u : Fin n → K := fun i => ∑ j, M i j * v j
          if (List.finRange n).any fun i => decide (0 < u i) then
            let w : Fin n → K := fun j =>
              maxOf (List.ofFn fun i => -(∑ l, M i l * B l j - if i = j then 1 else 0) / u i)
            let B' : Fin n → Fin n → K := fun i j => B i j + ∑ l, v l * w l
            let u' : Fin n → Fin m → K := fun i k => ∑ j, B' i j * (b' j k).mag
            let d : K := ∑ i, B' i i
            if decide (d = 0) || (List.finRange n).any fun i => decide (u i = 0 ∨ B' i i = 0) then .error .zeroDivisionError
            else
              let alpha : Fin n → K := fun i => M i i + -1 / B' i i
              let beta : Fin n → Fin m → K := fun i k => u' i k / d - (b' i k).mag
              let D := dotEntry (dotIN R (List.ofFn fun i => (A' i i).add R (mkSym (alpha i))) (List.ofFn fun _ : Fin n => (1 : K)))
              match Iv.recip R D.cls D with
              | .error e => .error e
              | .ok q => .ok fun i k => ((b' i k).add R (mkSym (beta i k))).mul R q
          else .error .assertionError

end IntvalPy
