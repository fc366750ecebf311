import Verif.ModelLinear

/-!
# Arithmetic between interval arrays, numpy arrays, intervals and numbers

/repo/intvalpy/kernel/real_intervals.py:246-305, 323-336 (`ArrayInterval`) and
/repo/intvalpy/kernel/interval_arithmetics.pyx:354-370, 392-526 (`ClassicalArithmetic`, and the same branches of
`KaucherArithmetic`).  Which method computes an operation depends on the kinds of both operands, because Python
tries the left operand first and numpy hands the operation to the `__array_ufunc__` of an operand that has one.

Arrays are one-dimensional here.  Numbers are Python numbers (a numpy scalar takes the way of an array); the arrays
of numbers hold floats, which numpy converts to Python floats when it combines them with an array of objects.
-/

set_option autoImplicit false

namespace IntvalPy

variable {K : Type*} [Field K] [LinearOrder K] [IsStrictOrderedRing K]

/-- The four operators. -/
inductive ArOp
  | add | sub | mul | div
  deriving DecidableEq

/-- An operand: a Python number, an interval, an `ArrayInterval`, or a numpy array of floats. -/
inductive Opd (K : Type*)
  | num (c : K)
  | iv (X : Iv K)
  | arr (A : List (Iv K))
  | npa (v : List K)

/-- A result: an interval, an `ArrayInterval`, or a plain numpy array of dtype object.  An element `none` is an
interval with an infinite or undefined endpoint (numpy divides floats by zero without raising). -/
inductive OpRes (K : Type*)
  | interval (X : Iv K)
  | array (l : List (Option (Iv K)))
  | objects (l : List (Option (Iv K)))

/-- `np.vectorize(f)(a)`: numpy refuses arrays without elements ("cannot call `vectorize` on size 0 inputs"). -/
def npVec {α β : Type*} (f : α → β) (l : List α) : Except Err (List β) :=
  if l.isEmpty then .error .valueError else .ok (l.map f)

/-- Evaluation of an array of objects element by element; the first exception ends it. -/
def objLoop {α β : Type*} (f : α → Except Err β) : List α → Except Err (List β)
  | [] => .ok []
  | x :: t => match f x with
    | .error e => .error e
    | .ok y => match objLoop f t with
      | .error e => .error e
      | .ok ys => .ok (y :: ys)

/-- Interval with interval, `__add__` ... `__truediv__`, interval_arithmetics.pyx:392-467. -/
def elemII (R : Rnd K) : ArOp → Iv K → Iv K → Except Err (Iv K)
  | .add, x, y => .ok (x.add R y)
  | .sub, x, y => .ok (x.sub R y)
  | .mul, x, y => .ok (x.mul R y)
  | .div, x, y => x.div R y

/-- Interval with number, interval_arithmetics.pyx:400-401, 411-412, 443-444, 466-467. -/
def elemIN (R : Rnd K) : ArOp → Iv K → K → Except Err (Iv K)
  | .add, x, c => .ok (x.addNum R c)
  | .sub, x, c => .ok (x.subNum R c)
  | .mul, x, c => .ok (x.mulNum R c)
  | .div, x, c => x.divNum R c

/-- Number with interval, the reflected methods, interval_arithmetics.pyx:484-526. -/
def elemNI (R : Rnd K) : ArOp → K → Iv K → Except Err (Iv K)
  | .add, c, x => .ok (Iv.radd R c x)
  | .sub, c, x => .ok (Iv.rsub R c x)
  | .mul, c, x => .ok (Iv.rmul R c x)
  | .div, c, x => Iv.rdiv R c x

/-- `ArrayInterval op Interval`: numpy calls `Interval.__array_ufunc__`, which goes through `np.vectorize`
(`__radd__`, `__rmul__`), adds the negated interval for `-`, and multiplies by the outward reciprocal for `/`,
real_intervals.py:246-276, interval_arithmetics.pyx:354-370, 492-494, 515-516. -/
def arrIv (R : Rnd K) (A : List (Iv K)) (X : Iv K) : ArOp → Except Err (List (Iv K))
  | .add => npVec (fun o => o.add R X) A
  | .sub => npVec (fun o => o.add R X.neg) A
  | .mul => npVec (fun o => o.mul R X) A
  | .div => match Iv.recip R X.cls X with
    | .error e => .error e
    | .ok q => npVec (fun o => o.mul R q) A

/-- `Interval op ArrayInterval`: `other + self`, `-other + self`, `other * self` and `1.0/other * self`, the last
with `ArrayInterval.__rtruediv__`, i.e. `1/other` times `1.0` times the interval,
interval_arithmetics.pyx:400-401, 411-412, 443-444, 466-467, real_intervals.py:145-146, 297-298. -/
def ivArr (R : Rnd K) (X : Iv K) (A : List (Iv K)) : ArOp → Except Err (List (Iv K))
  | .add => npVec (fun o => o.add R X) A
  | .sub => npVec (fun o => o.add R X) (A.map Iv.neg)
  | .mul => npVec (fun o => o.mul R X) A
  | .div => match objLoop (Iv.rdiv R 1) A with
    | .error e => .error e
    | .ok Q => npVec (fun o => o.mul R X) (Q.map fun q => q.mulNum R 1)

/-- `number op ArrayInterval`, real_intervals.py:288-298. -/
def numArr (R : Rnd K) (c : K) (A : List (Iv K)) : ArOp → Except Err (List (Iv K))
  | .add => .ok (A.map fun o => o.addNum R c)
  | .sub => .ok (A.map fun o => Iv.rsub R c o)
  | .mul => .ok (A.map fun o => o.mulNum R c)
  | .div => match objLoop (Iv.rdiv R 1) A with
    | .error e => .error e
    | .ok Q => .ok (Q.map fun q => q.mulNum R c)

/-- `numpy array op Interval`: `Interval.__array_ufunc__` with the array as `args[2]`; a plain numpy array comes
back, interval_arithmetics.pyx:354-370. -/
def npaIv (R : Rnd K) (v : List K) (X : Iv K) : ArOp → Except Err (List (Option (Iv K)))
  | .add => npVec (fun c => some (Iv.radd R c X)) v
  | .sub => npVec (fun c => some (Iv.radd R c X.neg)) v
  | .mul => npVec (fun c => some (Iv.rmul R c X)) v
  | .div => match Iv.recip R X.cls X with
    | .error e => .error e
    | .ok q => npVec (fun c => some (Iv.rmul R c q)) v

/-- `Interval op numpy array`: `other + self`, `-other + self`, `other * self`, `1.0/other * self`; in the last the
reciprocals are numpy floats, rounded to nearest and infinite for zero, interval_arithmetics.pyx:400-401, 411-412,
443-444, 466-467. -/
def ivNpa (R : Rnd K) (X : Iv K) (v : List K) : ArOp → Except Err (List (Option (Iv K)))
  | .add => npVec (fun c => some (Iv.radd R c X)) v
  | .sub => npVec (fun c => some (Iv.radd R (-c) X)) v
  | .mul => npVec (fun c => some (Iv.rmul R c X)) v
  | .div => npVec (fun c => if c = 0 then none else some (Iv.rmul R (R.nr (1 / c)) X)) v

/-- Two arrays: broadcasting, then element by element. -/
def paired {α β : Type*} (g : α × β → Except Err (Iv K)) (A : List α) (B : List β) : Except Err (OpRes K) :=
  match npBroadcast2 A B with
  | .error e => .error e
  | .ok l => (objLoop g l).map fun s => .array (s.map some)

/-- The whole dispatch.  `none`: no interval takes part, so none of this library's code runs. -/
def binop (R : Rnd K) (op : ArOp) : Opd K → Opd K → Option (Except Err (OpRes K))
  | .iv X, .iv Y => some ((elemII R op X Y).map .interval)
  | .iv X, .num c => some ((elemIN R op X c).map .interval)
  | .num c, .iv X => some ((elemNI R op c X).map .interval)
  | .arr A, .arr B => some (paired (fun p => elemII R op p.1 p.2) A B)
  | .arr A, .num c => some ((objLoop (fun o => elemIN R op o c) A).map fun s => .array (s.map some))
  | .num c, .arr A => some ((numArr R c A op).map fun s => .array (s.map some))
  | .arr A, .npa v => some (paired (fun p => elemIN R op p.1 p.2) A v)
  | .npa v, .arr A => some (paired (fun p => elemNI R op p.1 p.2) v A)
  | .arr A, .iv X => some ((arrIv R A X op).map fun s => .array (s.map some))
  | .iv X, .arr A => some ((ivArr R X A op).map fun s => .array (s.map some))
  | .npa v, .iv X => some ((npaIv R v X op).map .objects)
  | .iv X, .npa v => some ((ivNpa R X v op).map .objects)
  | .num _, .num _ => none
  | .num _, .npa _ => none
  | .npa _, .num _ => none
  | .npa _, .npa _ => none

/-- `ArrayInterval ** n` for a natural number, real_intervals.py:278-279: `np.vectorize(pow)`. -/
def arrPow (R : Rnd K) (A : List (Iv K)) (n : ℕ) : Except Err (List (Iv K)) := npVec (fun o => o.powNat R n) A

end IntvalPy
