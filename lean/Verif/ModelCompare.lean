import Verif.ModelArrayOps
import Verif.ModelObjects

/-!
# Comparisons between interval arrays, numpy arrays, intervals and numbers; access to the elements of an array

/repo/intvalpy/kernel/real_intervals.py:14-19, 24-25, 138-166, 168-229 (`ArrayInterval`) and
/repo/intvalpy/kernel/interval_arithmetics.pyx:199-253, 354-388 (`BaseTools`).

Python asks the left operand first.  A Python number gives up and the reflected method of the right operand runs; a
numpy scalar or array does not give up when the right operand has `__array_ufunc__`, but hands the comparison to it, and
the `__array_ufunc__` of this library knows no comparisons.

Arrays are one-dimensional unless said otherwise.  numpy of version 1.25 or later is assumed, in which `==` raises like
the other comparisons when the shapes do not fit.
-/

set_option autoImplicit false

namespace IntvalPy

variable {K : Type*} [Field K] [LinearOrder K] [IsStrictOrderedRing K]

/-! ## Comparisons -/

/-- The six comparison operators. -/
inductive CmpOp
  | lt | le | eq | ne | gt | ge
  deriving DecidableEq, Repr

/-- The reflected operator which Python tries when the left operand gives up. -/
def CmpOp.swap : CmpOp → CmpOp
  | .lt => .gt | .le => .ge | .eq => .eq | .ne => .ne | .gt => .lt | .ge => .le

/-- An operand: a Python number, a numpy scalar, an interval, an `ArrayInterval`, or a numpy array of floats. -/
inductive CmpOpd (K : Type*)
  | num (c : K)
  | npnum (c : K)
  | iv (X : Iv K)
  | arr (A : List (Iv K))
  | npa (v : List K)

/-- A result: one truth value, or a numpy array of truth values. -/
inductive CmpRes
  | one (t : Bool)
  | array (l : List Bool)
  deriving DecidableEq, Repr

/-- The comparison methods of an interval, interval_arithmetics.pyx:207-253. -/
def Iv.cmp : CmpOp → Iv K → Iv.CmpArg K → Except Err Bool
  | .lt, x, y => x.lt y
  | .le, x, y => x.le y
  | .eq, x, y => x.eq y
  | .ne, x, y => x.ne y
  | .gt, x, y => x.gt y
  | .ge, x, y => x.ge y

/-- The comparison methods of an `ArrayInterval`, real_intervals.py:174-208: `self._data < other._data` and
`self._data < other`.  numpy compares an array of objects with an array or a number element by element; with a single
interval it calls `BaseTools.__array_ufunc__`, which raises (interval_arithmetics.pyx:387-388). -/
def arrCmp (op : CmpOp) (A : List (Iv K)) : CmpOpd K → Except Err CmpRes
  | .arr B => match npBroadcast2 A B with
    | .error e => .error e
    | .ok l => (objLoop (fun p => Iv.cmp op p.1 (.iv p.2)) l).map .array
  | .npa v => match npBroadcast2 A v with
    | .error e => .error e
    | .ok l => (objLoop (fun p => Iv.cmp op p.1 (.num p.2)) l).map .array
  | .num c => (objLoop (fun o => Iv.cmp op o (.num c)) A).map .array
  | .npnum c => (objLoop (fun o => Iv.cmp op o (.num c)) A).map .array
  | .iv _ => .error .notImplementedError

/-- The whole dispatch of `l op r`.  An interval raises `TypeError` for arrays (interval_arithmetics.pyx:212-213 and so
on); numpy scalars and arrays on the left reach `__array_ufunc__`, which raises `NotImplementedError`
(interval_arithmetics.pyx:387-388) or a plain `Exception` (real_intervals.py:358-359).
`none`: no interval takes part, so none of this library's code runs. -/
def pyCompare (op : CmpOp) : CmpOpd K → CmpOpd K → Option (Except Err CmpRes)
  | .iv X, .iv Y => some ((Iv.cmp op X (.iv Y)).map .one)
  | .iv X, .num c => some ((Iv.cmp op X (.num c)).map .one)
  | .iv X, .npnum c => some ((Iv.cmp op X (.num c)).map .one)
  | .iv X, .arr _ => some ((Iv.cmp op X .other).map .one)
  | .iv X, .npa _ => some ((Iv.cmp op X .other).map .one)
  | .arr A, r => some (arrCmp op A r)
  | .num c, .iv X => some ((Iv.cmp op.swap X (.num c)).map .one)
  | .num c, .arr A => some (arrCmp op.swap A (.num c))
  | .npnum _, .iv _ => some (.error .notImplementedError)
  | .npnum _, .arr _ => some (.error .exception)
  | .npa _, .iv _ => some (.error .notImplementedError)
  | .npa _, .arr _ => some (.error .exception)
  | _, _ => none

/-! ## Reading and writing elements -/

/-- A cell of the array of objects behind an `ArrayInterval`: an interval, or an array of intervals when one has been
stored there. -/
inductive Slot (K : Type*)
  | iv (X : Iv K)
  | nda (l : List (Iv K))

/-- A key for a one-dimensional array: an integer, or a slice or mask given by the positions it selects. -/
inductive SetKey
  | int (i : ℤ)
  | pos (ps : List ℕ)

/-- The value of an assignment: an interval, an `ArrayInterval`, a number, or a list or numpy array whose items are
numbers or intervals. -/
inductive SetVal (K : Type*)
  | iv (X : Iv K)
  | arr (B : List (Iv K))
  | num (c : K)
  | seq (s : List (K ⊕ Iv K))

/-- The lambda of real_intervals.py:229: `SingleInterval(v, v)`, which asserts that `v` is a number (line 371). -/
def pointItem : K ⊕ Iv K → Except Err (Iv K)
  | .inl c => .ok ⟨.classical, c, c⟩
  | .inr _ => .error .assertionError

/-- The value that reaches numpy, real_intervals.py:220-229.  `np.vectorize` refuses an empty list. -/
def setValue : SetVal K → Except Err (Iv K ⊕ List (Iv K))
  | .iv X => .ok (.inl X)
  | .arr B => .ok (.inr B)
  | .num c => .ok (.inl ⟨.classical, c, c⟩)
  | .seq s => if s.isEmpty then .error .valueError else match objLoop pointItem s with
    | .error e => .error e
    | .ok l => .ok (.inr l)

/-- Position of an integer key in an array of `n` elements; negative integers count from the end. -/
def wrapIndex (n : ℕ) (i : ℤ) : Except Err ℕ :=
  if 0 ≤ i ∧ i < n then .ok i.toNat
  else if -n ≤ i ∧ i < 0 then .ok (n + i).toNat
  else .error .indexError

/-- `self._data[ps] = values`, one cell after the other. -/
def storeAt (A : List (Slot K)) (pv : List (ℕ × Iv K)) : List (Slot K) :=
  pv.foldl (fun A p => A.set p.1 (.iv p.2)) A

/-- `A[key] = value`, real_intervals.py:220-229, for a one-dimensional array.  With an integer key numpy stores the value
itself in the cell, whatever it is, because the array holds objects. -/
def setItem (A : List (Slot K)) (key : SetKey) (value : SetVal K) : Except Err (List (Slot K)) :=
  match setValue value with
  | .error e => .error e
  | .ok v => match key with
    | .int i => match wrapIndex A.length i with
      | .error e => .error e
      | .ok k => match v with
        | .inl X => .ok (A.set k (.iv X))
        | .inr l => .ok (A.set k (.nda l))
    | .pos ps => if ps.all (· < A.length) then match v with
        | .inl X => .ok (storeAt A (ps.map fun p => (p, X)))
        | .inr l => if l.length = ps.length then .ok (storeAt A (ps.zip l)) else match l with
          | [X] => .ok (storeAt A (ps.map fun p => (p, X)))
          | _ => .error .valueError
      else .error .indexError

/-- `A.a` as a list of numbers (without the cast of `np.vectorize`, which is `arrA`): a cell that holds an array has no
attribute `a`, real_intervals.py:27-29. -/
def endsA : List (Slot K) → Except Err (List K)
  | A => if A.isEmpty then .error .valueError else objLoop (fun
    | .iv X => .ok X.a
    | .nda _ => .error .attributeError) A

/-- What an array access returns: an interval, an `ArrayInterval`, or a numpy array of objects, which has none of the
methods of an interval array. -/
inductive ArrItem (K : Type*)
  | interval (X : Iv K)
  | array (l : List (Iv K))
  | plain (l : List (Iv K))

/-- `A[i]` for an array with one or two axes, real_intervals.py:213-218. -/
def getItem1 (A : List (Iv K)) (i : ℤ) : Except Err (ArrItem K) :=
  match wrapIndex A.length i with
  | .error e => .error e
  | .ok k => match A[k]? with
    | some X => .ok (.interval X)
    | none => .error .indexError

@[inherit_doc getItem1]
def getItem2 (A : List (List (Iv K))) (i : ℤ) : Except Err (ArrItem K) :=
  match wrapIndex A.length i with
  | .error e => .error e
  | .ok k => match A[k]? with
    | some X => .ok (.array X)
    | none => .error .indexError

/-- `list(A)`: the iterator is that of the numpy array, real_intervals.py:24-25. -/
def iterItems1 (A : List (Iv K)) : List (ArrItem K) := A.map .interval

@[inherit_doc iterItems1]
def iterItems2 (A : List (List (Iv K))) : List (ArrItem K) := A.map .plain

/-- `list(reversed(A))`, real_intervals.py:148-149: `self.storage` does not exist. -/
def reversedItems {α : Type*} (_A : List α) : Except Err (List (ArrItem K)) := .error .attributeError

/-! ## Containment -/

/-- The left operand of `y in A` for a one-dimensional array. -/
inductive InArg (K : Type*)
  | num (c : K)
  | iv (Y : Iv K)
  | vec (v : List K)
  | arr (B : List (Iv K))

/-- The loop of `ArrayInterval.__contains__`, real_intervals.py:155-166: `contain` is unbound before the first turn. -/
def inLoop (f : ℕ → Iv K → Except Err Bool) : ℕ → List (Iv K) → Option Bool → Except Err Bool
  | _, [], none => .error .unboundLocalError
  | _, [], some t => .ok t
  | k, X :: rest, _ => match f k X with
    | .error e => .error e
    | .ok true => .ok true
    | .ok false => inLoop f (k + 1) rest (some false)

/-- `y in A` for every kind of left operand, real_intervals.py:155-166. -/
def arrIn (A : List (Iv K)) : InArg K → Except Err Bool
  | .num c => inLoop (fun _ X => .ok (X.containsNum c)) 0 A none
  | .iv Y => inLoop (fun _ X => .ok (X.containsIv Y)) 0 A none
  | .vec v => inLoop (fun k X => match v[k]? with
      | some c => .ok (X.containsNum c)
      | none => .error .indexError) 0 A none
  | .arr B => inLoop (fun k X => match B[k]? with
      | some Y => .ok (X.containsIv Y)
      | none => .error .indexError) 0 A none

end IntvalPy
