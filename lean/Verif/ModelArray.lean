import Verif.ModelObjects
import Verif.ModelFloat

/-!
# Interval arrays

/repo/intvalpy/kernel/real_intervals.py (class `ArrayInterval`), /repo/intvalpy/kernel/new_objects.py,
/repo/intvalpy/kernel/utils.py.
-/

set_option autoImplicit false

namespace IntvalPy

/-! ## Endpoint views (`np.vectorize`) -/

/-- Truncation towards zero, `int(x)` of a finite float. -/
def truncQ (q : ℚ) : ℤ := if 0 ≤ q then ⌊q⌋ else ⌈q⌉

/-- Conversion of one Python number to `int64`, as done when an object array is cast to the output type
of `np.vectorize`. -/
def toInt64 : Num → Except Err Num
  | .int z => if -(2 ^ 63) ≤ z ∧ z < 2 ^ 63 then .ok (.int z) else .error .overflowError
  | .dbl (.fin q) =>
      if -(2 ^ 63) ≤ truncQ q ∧ truncQ q < 2 ^ 63 then .ok (.int (truncQ q)) else .error .overflowError
  | .dbl .nan => .error .valueError
  | .dbl _ => .error .overflowError

/-- `np.vectorize(f)(array)` with the outputs of `f` given as a list: the output type is that of the
*first* output and all outputs are cast to it; a size-zero input raises `ValueError`
(documented behaviour of `np.vectorize` without `otypes`), used at
/repo/intvalpy/kernel/real_intervals.py:27-41, 70-72.
Simplification: an `int` first output outside the range of `int64` is not cast. -/
def npVectorizeNum : List Num → Except Err (List Num)
  | [] => .error .valueError
  | .int z :: rest =>
      if -(2 ^ 63) ≤ z ∧ z < 2 ^ 63 then (Num.int z :: rest).mapM toInt64 else .ok (.int z :: rest)
  | .dbl d :: rest => (Num.dbl d :: rest).mapM fun v => v.toDbl.map Num.dbl

/-- `A.a` and `A.inf` of an interval array (elements in row-major order),
/repo/intvalpy/kernel/real_intervals.py:27-29, 35-37. -/
def arrA (A : List FIv) : Except Err (List Num) := npVectorizeNum (A.map FIv.a)

/-- `A.b` and `A.sup`, /repo/intvalpy/kernel/real_intervals.py:31-33, 39-41. -/
def arrB (A : List FIv) : Except Err (List Num) := npVectorizeNum (A.map FIv.b)

/-! ## numpy functions called with an interval as the first operand -/

variable {K : Type*} [Field K] [LinearOrder K]

/-- The names dispatched by `__array_ufunc__`. -/
inductive UFunc
  | add | subtract | multiply | divide
  deriving DecidableEq, Repr

/-- `__array_ufunc__(self, ufunc, '__call__', in0, in1)` on a scalar interval when `in0` is an interval:
`args[2]` is `in0`, and `__radd__`/`__rmul__` take the non-number branch `o + self` / `o * self`,
/repo/intvalpy/kernel/interval_arithmetics.pyx:355-372, 491-492, 514-515, 649-650, 684-685. -/
def ufuncIv (R : Rnd K) (f : UFunc) (self in0 : Iv K) : Except Err (Iv K) :=
  match f with
  | .add => .ok (in0.add R self)
  | .subtract => .ok (in0.add R ⟨self.cls, -self.b, -self.a⟩)
  | .multiply => .ok (in0.mul R self)
  | .divide => (Iv.recip R self.cls self).map fun r => in0.mul R r

/-- `np.<f>(X, Y)` for two scalar intervals: numpy calls `__array_ufunc__` of the first operand that
defines it, i.e. with `self = X` (and `in0 = X`). -/
def npCall (R : Rnd K) (f : UFunc) (X _Y : Iv K) : Except Err (Iv K) := ufuncIv R f X X

/-- The Python operator with the same name. -/
def operator (R : Rnd K) (f : UFunc) (X Y : Iv K) : Except Err (Iv K) :=
  match f with
  | .add => .ok (X.add R Y)
  | .subtract => .ok (X.sub R Y)
  | .multiply => .ok (X.mul R Y)
  | .divide => X.div R Y

/-! ## Matrix products -/

/-- One entry of `@` on object arrays: the products are formed one by one and added left to right; the
sum over an empty axis is the Python object `False`, here `none`.
(numpy's object `matmul` loop; /repo/intvalpy/kernel/real_intervals.py:281-286, 336-341.) -/
def objDot {α β γ : Type*} (mul : α → β → γ) (add : γ → γ → γ) : List α → List β → Option γ
  | x :: xs, y :: ys => some ((List.zipWith mul xs ys).foldl add (mul x y))
  | _, _ => none

/-- `A @ B` for interval matrices, one entry: row of `A` and column of `B`,
/repo/intvalpy/kernel/real_intervals.py:281-286 and 336-341. -/
def dotII (R : Rnd K) (x y : List (Iv K)) : Option (Iv K) := objDot (Iv.mul R) (Iv.add R) x y

/-- `A @ x` for a point vector or matrix: `interval * number`, which is `number * interval`,
/repo/intvalpy/kernel/real_intervals.py:281-286, /repo/intvalpy/kernel/interval_arithmetics.pyx:442-443,573-574. -/
def dotIN (R : Rnd K) (x : List (Iv K)) (y : List K) : Option (Iv K) := objDot (Iv.mulNum R) (Iv.add R) x y

/-- `x @ A` for a point vector or matrix, /repo/intvalpy/kernel/real_intervals.py:300-305. -/
def dotNI (R : Rnd K) (x : List K) (y : List (Iv K)) : Option (Iv K) := objDot (Iv.rmul R) (Iv.add R) x y

/-! ## vertex -/

/-- `itertools.product(choices, repeat=n)`, /repo/intvalpy/kernel/real_intervals.py:109. -/
def product {α : Type*} (choices : List α) : ℕ → List (List α)
  | 0 => [[]]
  | n + 1 => choices.flatMap fun c => (product choices n).map (c :: ·)

/-- One row of `vertex`: the lower endpoint where `ends == 0`, the upper one where `ends == 1`,
/repo/intvalpy/kernel/real_intervals.py:110-112. -/
def vertexRow (X : List (Iv K)) (ends : List Bool) : List K :=
  List.zipWith (fun (x : Iv K) e => if e then x.b else x.a) X ends

/-- `vertex` of a one-dimensional interval array, /repo/intvalpy/kernel/real_intervals.py:102-113, 127;
the endpoint views raise `ValueError` for an empty array.
Simplification: the endpoint views `self.a`, `self.b` are taken to be the stored endpoints (see C63). -/
def vertex (X : List (Iv K)) : Except Err (List (List K)) :=
  if X = [] then .error .valueError
  else .ok ((product [false, true] X.length).map (vertexRow X))

/-- `vertex` of a two-dimensional interval array, /repo/intvalpy/kernel/real_intervals.py:115-123: product of
products, one matrix per choice. -/
def vertex2 (m : ℕ) (A : List (List (Iv K))) : Except Err (List (List (List K))) :=
  if A = [] ∨ m = 0 then .error .valueError
  else .ok ((product (product [false, true] m) A.length).map fun ends => List.zipWith vertexRow A ends)

/-! ## zeros, full, eye, diag, compmat -/

/-- `Interval(left, right, sortQ=False)` for two number matrices of the same shape,
/repo/intvalpy/kernel/real_intervals.py:457-459, 471: elementwise `SingleInterval` (which cannot fail
without `midRadQ`); `np.vectorize` raises
`ValueError` when there is no element. -/
def intervalM (R : Rnd K) (m n : ℕ) (l r : Fin m → Fin n → K) : Except Err (Fin m → Fin n → Iv K) :=
  if m = 0 ∨ n = 0 then .error .valueError
  else .ok fun i j =>
    match singleInterval R (l i j) (r i j) false false with
    | .ok X => X
    | .error _ => ⟨.classical, 0, 0⟩

/-- `zeros((m, n))`, /repo/intvalpy/kernel/new_objects.py:6-21. -/
def zerosM (R : Rnd K) (m n : ℕ) : Except Err (Fin m → Fin n → Iv K) :=
  intervalM R m n (fun _ _ => 0) (fun _ _ => 0)

/-- `full((m, n), inf, sup)` (`sortQ=False`), /repo/intvalpy/kernel/new_objects.py:24-26. -/
def fullM (R : Rnd K) (m n : ℕ) (inf sup : K) : Except Err (Fin m → Fin n → Iv K) :=
  intervalM R m n (fun _ _ => inf) (fun _ _ => sup)

/-- `np.eye(N, M, k)[i, j]`, /repo/intvalpy/kernel/new_objects.py:56-57. -/
def npEye (k : ℤ) (i j : ℕ) : K := if (j : ℤ) = i + k then 1 else 0

/-- `eye(N, M, k)`, /repo/intvalpy/kernel/new_objects.py:29-57. -/
def eyeM (R : Rnd K) (N M : ℕ) (k : ℤ) : Except Err (Fin N → Fin M → Iv K) :=
  intervalM R N M (fun i j => npEye k i j) (fun i j => npEye k i j)

/-- `diag(v, k)` of a matrix: the list of entries `(i, i + k)` inside the matrix in order of `i`,
/repo/intvalpy/kernel/utils.py:44-64 (`np.diag` on the object array). -/
def diagM {m n : ℕ} (A : Fin m → Fin n → Iv K) (k : ℤ) : List (Iv K) :=
  (List.finRange m).filterMap fun (i : Fin m) =>
    if h : 0 ≤ (i : ℤ) + k ∧ (i : ℤ) + k < n then
      some (A i ⟨((i : ℤ) + k).toNat, by omega⟩)
    else none

/-- An element of the square array built by `diag` from a vector: `np.diag` fills the remaining places
of the *object* array with the integer `0`, and `asinterval` turns every element into an interval
(intervals unchanged, numbers degenerate), /repo/intvalpy/kernel/utils.py:64,
/repo/intvalpy/kernel/preprocessing.py:97-106. -/
def diagV {n : ℕ} (v : Fin n → Iv K) (k : ℤ) :
    Fin (n + k.natAbs) → Fin (n + k.natAbs) → Iv K := fun i j =>
  if (j : ℤ) = i + k then
    let p : ℕ := if 0 ≤ k then i else j
    if h : p < n then v ⟨p, h⟩ else ⟨.classical, 0, 0⟩
  else ⟨.classical, 0, 0⟩

/-- `compmat`, /repo/intvalpy/kernel/utils.py:67-76. -/
def compmat {n : ℕ} (A : Fin n → Fin n → Iv K) : Fin n → Fin n → K := fun k l =>
  if k = l then (A k l).mig else -(A k l).mag

/-! ## Test systems -/

/-- `Interval(l, r, sortQ=False)` of two numbers, total form of `singleInterval` without the
midpoint-radius branch, /repo/intvalpy/kernel/real_intervals.py:393-396. -/
def mkIv (l r : K) : Iv K := if l ≤ r then ⟨.classical, l, r⟩ else ⟨.kaucher, l, r⟩

/-- `zeros(...) + X` for a scalar interval, one element: `Classical(0.0, 0.0) + X`,
/repo/intvalpy/kernel/new_objects.py:106, 152-153, 166. -/
def zeroPlus (R : Rnd K) (X : Iv K) : Iv K := Iv.add R ⟨.classical, 0, 0⟩ X

/-- `for k in range(n): A[k, k] = X`: item assignments in a loop,
/repo/intvalpy/kernel/new_objects.py:107-108, 155-156. -/
def setDiag {n : ℕ} (A : Fin n → Fin n → Iv K) (X : Fin n → Iv K) : Fin n → Fin n → Iv K :=
  (List.finRange n).foldl (fun B k => Function.update B k (Function.update (B k) k (X k))) A

/-- `Neumaier_system(n, theta, infb, supb)`, /repo/intvalpy/kernel/new_objects.py:62-110: `b` is built with
sorting from `[interval]*n` (an empty list fails with `IndexError` at `data[..., 0]`), `infb` and `supb`
default to `-1` and `1`.
Simplification: `n = 2` gives a two-element list of two-element lists, which `Interval` also treats as
an array. -/
def neumaierSystem (R : Rnd K) (n : ℕ) (theta : K) (infb supb : Option K) :
    Except Err ((Fin n → Fin n → Iv K) × (Fin n → Iv K)) :=
  let l := infb.getD (-1)
  let u := supb.getD 1
  if n = 0 then .error .indexError
  else
    let b : Iv K := if u < l then ⟨.classical, u, l⟩ else ⟨.classical, l, u⟩
    .ok (setDiag (fun _ _ => zeroPlus R (mkIv 0 2)) (fun _ => mkIv theta theta), fun _ => b)

/-- The assertion of `Shary_system` fails: `N` given and `N < n - 1`,
/repo/intvalpy/kernel/new_objects.py:144-147. -/
def sharyAssertFails (n : ℕ) : Option K → Bool
  | none => false
  | some N => decide (N < (n : K) - 1)

/-- `Shary_system(n, N, alpha, beta)`, /repo/intvalpy/kernel/new_objects.py:113-158.  The default `N = n` is
the call with `N = none`; `zeros((0, 0))` raises `ValueError`. -/
def sharySystem (R : Rnd K) (n : ℕ) (N : Option K) (alpha beta : K) :
    Except Err ((Fin n → Fin n → Iv K) × (Fin n → Iv K)) :=
  if sharyAssertFails n N then .error .assertionError
  else
    let N' := N.getD n
    if alpha < 0 ∨ beta < alpha ∨ 1 < beta then .error .exception
    else if n = 0 then .error .valueError
    else .ok
      (setDiag (fun _ _ => zeroPlus R (mkIv (R.nr (alpha - 1)) (R.nr (1 - beta))))
        (fun _ => mkIv ((n : K) - 1) N'),
       fun _ => zeroPlus R (mkIv (1 - (n : K)) ((n : K) - 1)))

/-- `Toft_system(n, r, R)`, /repo/intvalpy/kernel/new_objects.py:161-174: diagonal, then last column, then
last row; `zeros((0, 0))` raises `ValueError`. -/
def toftSystem (Rd : Rnd K) (n : ℕ) (r R : K) :
    Except Err ((Fin n → Fin n → Iv K) × (Fin n → Iv K)) :=
  if r < 0 then .error .assertionError
  else if R < 0 then .error .assertionError
  else if n = 0 then .error .valueError
  else
    let a : Fin n → Iv K := fun k =>
      let l := Rd.nr ((k : ℕ) + 1 - r)
      let u := Rd.nr ((k : ℕ) + 1 + r)
      if u < l then ⟨.classical, u, l⟩ else ⟨.classical, l, u⟩
    let D := setDiag (fun _ _ => ⟨.classical, 0, 0⟩) (fun _ => mkIv (Rd.nr (1 - r)) (Rd.nr (1 + r)))
    let C : Fin n → Fin n → Iv K := fun i j => if (j : ℕ) + 1 = n then a i else D i j
    .ok (fun i j => if (i : ℕ) + 1 = n then a j else C i j,
      fun _ => zeroPlus Rd (mkIv (Rd.nr (1 - R)) (Rd.nr (1 + R))))

/-! ## Deletion -/

/-- The kinds of key that `__delitem__` distinguishes, /repo/intvalpy/kernel/real_intervals.py:231-244. -/
inductive DelKey
  | int (i : ℤ)
  | slice (start stop : ℕ)
  | list (l : List ℤ)
  | other
  deriving DecidableEq, Repr

/-- `np.delete(data, i, axis=0)` of a 1-D array for one index: negative indices count from the end, anything
else out of range raises `IndexError`. -/
def npDelete1 {α : Type*} (l : List α) (i : ℤ) : Except Err (List α) :=
  if -(l.length : ℤ) ≤ i ∧ i < l.length then
    .ok (l.eraseIdx (if 0 ≤ i then i else i + l.length).toNat)
  else .error .indexError

/-- `del A[key]` for a 1-D interval array, /repo/intvalpy/kernel/real_intervals.py:231-244: an `int` key is passed
to `np.delete`; for the other accepted kinds `key[-1]` is deleted along axis `len(key)-1`
(a slice cannot be indexed: `TypeError`; an axis other than 0 raises `AxisError`, a `ValueError`). -/
def delItem {α : Type*} (l : List α) : DelKey → Except Err (List α)
  | .int i => npDelete1 l i
  | .slice _ _ => .error .typeError
  | .list ks => match ks.getLast? with
      | none => .error .indexError
      | some k => if ks.length = 1 then npDelete1 l k else .error .valueError
  | .other => .error .typeError

/-! ## Augmented assignment and the shape attribute -/

/-- The attributes of an `ArrayInterval` that depend on the shape: the shape of `_data` and the cached
`_shape`, /repo/intvalpy/kernel/real_intervals.py:14-19. -/
structure ShapeState where
  dataShape : List ℕ
  cachedShape : List ℕ
  deriving DecidableEq, Repr

/-- numpy broadcasting of two shapes, least significant axis first in the recursion. -/
def broadcastRev : List ℕ → List ℕ → Option (List ℕ)
  | [], t => some t
  | s, [] => some s
  | a :: s, b :: t =>
      if a = b ∨ b = 1 then (broadcastRev s t).map (a :: ·)
      else if a = 1 then (broadcastRev s t).map (b :: ·)
      else none

/-- Broadcasting of two shapes. -/
def broadcast (s t : List ℕ) : Option (List ℕ) :=
  (broadcastRev s.reverse t.reverse).map List.reverse

/-- `__init__`, lines 14-19. -/
def ShapeState.init (shape : List ℕ) : ShapeState := ⟨shape, shape⟩

/-- `X += other` and the like: `_data` is replaced by the broadcast result, the cached shape is not touched,
/repo/intvalpy/kernel/real_intervals.py:307-321. -/
def ShapeState.augmented (s : ShapeState) (other : List ℕ) : Except Err ShapeState :=
  match broadcast s.dataShape other with
  | none => .error .valueError
  | some sh => .ok { s with dataShape := sh }

/-- `del X[i]` refreshes the cached shape, lines 232-236. -/
def ShapeState.deleted (_s : ShapeState) (newShape : List ℕ) : ShapeState := ⟨newShape, newShape⟩

end IntvalPy
