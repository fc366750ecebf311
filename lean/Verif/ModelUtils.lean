import Verif.ModelArray
import Verif.ModelObjects

/-!
# Characteristics of intervals in binary64, the helpers of `kernel/utils.py`, `get_shape`, `asinterval` of nested
lists and `IPlot.scatter`

/repo/intvalpy/kernel/interval_arithmetics.pyx:119-187, /repo/intvalpy/kernel/utils.py:79-193,
/repo/intvalpy/kernel/preprocessing.py:48-108, /repo/intvalpy/kernel/visualization.py:5-60.
-/

set_option autoImplicit false
set_option linter.unusedSectionVars false

namespace IntvalPy

/-! ## Characteristics of one interval (L1) -/

/-- C `fabs` of an endpoint: the argument is converted to `double` first,
/repo/intvalpy/kernel/interval_arithmetics.pyx:6, 140, 145. -/
def Num.fabs (x : Num) : Except Err Dbl :=
  match x.toDbl with
  | .error e => .error e
  | .ok (.fin q) => .ok (.fin |q|)
  | .ok .pinf => .ok .pinf
  | .ok .ninf => .ok .pinf
  | .ok .nan => .ok .nan

namespace FIv

/-- `wid`: `self.b - self.a` in the current rounding mode, /repo/intvalpy/kernel/interval_arithmetics.pyx:120-122. -/
def widN (m : Mode) (x : FIv) : Except Err Num := Num.sub m x.b x.a

/-- The Python float `0.5`. -/
def half : Num := .dbl (.fin (1 / 2))

/-- `rad`: `0.5 * self.wid`, /repo/intvalpy/kernel/interval_arithmetics.pyx:125-127. -/
def radN (m : Mode) (x : FIv) : Except Err Num :=
  match widN m x with
  | .error e => .error e
  | .ok w => Num.mul m half w

/-- `mid`: `0.5 * (self.b + self.a)`, /repo/intvalpy/kernel/interval_arithmetics.pyx:130-132. -/
def midN (m : Mode) (x : FIv) : Except Err Num :=
  match Num.add m x.b x.a with
  | .error e => .error e
  | .ok s => Num.mul m half s

/-- `mag`: `max(fabs(self.a), fabs(self.b))`, /repo/intvalpy/kernel/interval_arithmetics.pyx:143-145. -/
def magN (x : FIv) : Except Err Num :=
  match x.a.fabs, x.b.fabs with
  | .error e, _ => .error e
  | _, .error e => .error e
  | .ok p, .ok q => .ok ((Num.dbl p).max2 (.dbl q))

/-- `mig`: `0.0` when `0 in self`, else `min(fabs(self.a), fabs(self.b))`,
/repo/intvalpy/kernel/interval_arithmetics.pyx:135-140. -/
def migN (x : FIv) : Except Err Num :=
  if x.containsNum (.int 0) then .ok (.dbl (.fin 0))
  else match x.a.fabs, x.b.fabs with
    | .error e, _ => .error e
    | _, .error e => .error e
    | .ok p, .ok q => .ok ((Num.dbl p).min2 (.dbl q))

/-- `khi`: the endpoint of smaller magnitude divided by the other one,
/repo/intvalpy/kernel/interval_arithmetics.pyx:182-187. -/
def khiN (m : Mode) (x : FIv) : Except Err Num :=
  match x.a.fabs, x.b.fabs with
  | .error e, _ => .error e
  | _, .error e => .error e
  | .ok p, .ok q => if Dbl.le p q then Num.div m x.a x.b else Num.div m x.b x.a

end FIv

/-! ## Helpers of `kernel/utils.py` -/

/-- An element of the argument of the helpers: a number or an interval. -/
inductive UArg
  | num (c : Num)
  | iv (x : FIv)
  deriving DecidableEq, Repr

/-- The helpers of /repo/intvalpy/kernel/utils.py:89-193. -/
inductive Helper
  | wid | mid | rad | inf | sup | mag | khi
  deriving DecidableEq, Repr

/-- The inner functions `_wid`, `_mid`, ...: the property of an interval, and for a number `float(x)`
(`wid`, `mid`, `inf`, `sup`), `0.0` (`rad`), `float(abs(x))` (`mag`), the *integer* `1` (`khi`),
/repo/intvalpy/kernel/utils.py:90-94, 105-109, 120-124, 135-139, 150-154, 165-169, 180-184. -/
def Helper.elem (h : Helper) (m : Mode) : UArg → Except Err Num
  | .iv x => match h with
      | .wid => x.widN m
      | .mid => x.midN m
      | .rad => x.radN m
      | .inf => .ok x.a
      | .sup => .ok x.b
      | .mag => x.magN
      | .khi => x.khiN m
  | .num c => match h with
      | .rad => .ok (.dbl (.fin 0))
      | .mag => c.fabs.map .dbl
      | .khi => .ok (.int 1)
      | _ => c.toDbl.map .dbl

/-- `wid(x)`, `mid(x)`, ... for an iterable argument (an `ArrayInterval` or a list of numbers and intervals, elements
in row-major order): `np.vectorize` without output types, /repo/intvalpy/kernel/utils.py:96-101 and alike; the
properties `A.wid`, `A.mid`, `A.rad`, `A.mag`, `A.khi` of arrays are the same calls
(/repo/intvalpy/kernel/real_intervals.py:63-98). -/
def Helper.onArray (h : Helper) (m : Mode) (xs : List UArg) : Except Err (List Num) :=
  match xs.mapM (h.elem m) with
  | .error e => .error e
  | .ok vs => npVectorizeNum vs

/-- `isnan(x)` of an interval: `np.isnan(float(x.a)) or np.isnan(float(x.b))` (the second conversion only when the
first test fails), /repo/intvalpy/kernel/utils.py:79-84. -/
def isnanF (x : FIv) : Except Err Bool :=
  match x.a.toDbl with
  | .error e => .error e
  | .ok .nan => .ok true
  | .ok _ => match x.b.toDbl with
      | .error e => .error e
      | .ok .nan => .ok true
      | .ok _ => .ok false

/-! ## Nested lists -/

/-- A nested Python list of numbers, intervals, interval arrays and `ndarray`s of numbers; arrays carry their shape
and their elements in row-major order.  Simplification: other objects (strings, dictionaries, `None`) are not
represented. -/
inductive Nest (K : Type*)
  | num (c : K)
  | iv (x : Iv K)
  | arr (shape : List ℕ) (data : List (Iv K))
  | nd (shape : List ℕ) (data : List K)
  | seq (xs : List (Nest K))

variable {K : Type*}

/-- `len(x)`; numbers, scalar intervals and arrays without axes have no length. -/
def Nest.len : Nest K → Except Err ℕ
  | .num _ => .error .typeError
  | .iv _ => .error .typeError
  | .arr (n :: _) _ => .ok n
  | .arr [] _ => .error .typeError
  | .nd (n :: _) _ => .ok n
  | .nd [] _ => .error .typeError
  | .seq xs => .ok xs.length

/-- `all(len(item) == l for item in lst)`: stops at the first difference; `len` of a number raises,
/repo/intvalpy/kernel/preprocessing.py:71. -/
def allLen (l : ℕ) : List (Nest K) → Except Err Bool
  | [] => .ok true
  | x :: xs => match x.len with
      | .error e => .error e
      | .ok k => if k = l then allLen l xs else .ok false

/-- `isinstance(x, Sequence)`: lists are, numbers, intervals, interval arrays and `ndarray`s are not,
/repo/intvalpy/kernel/preprocessing.py:69. -/
def Nest.isSequence : Nest K → Bool
  | .seq _ => true
  | _ => false

/-- `get_shape` of an interval array of the given shape: a first axis of length one ends the recursion *before* the
axis is recorded, and a scalar interval has no `len`, /repo/intvalpy/kernel/preprocessing.py:64-80. -/
def getShapeArr : List ℕ → List ℕ → Except Err (List ℕ)
  | [], _ => .error .typeError
  | n :: sh, shape =>
      if n = 1 then .ok shape
      else if n = 0 then .error .indexError
      else getShapeArr sh (shape ++ [n])

/-- `get_shape(lst, shape)`, /repo/intvalpy/kernel/preprocessing.py:48-80: numbers end the recursion, an `ndarray`
returns its own shape *without* the outer axes, only `lst[0]` is descended into. -/
def getShape : Nest K → List ℕ → Except Err (List ℕ)
  | .num _, shape => .ok shape
  | .iv _, _ => .error .typeError
  | .arr sh _, shape => getShapeArr sh shape
  | .nd [] _, _ => .error .typeError
  | .nd sh _, _ => .ok sh
  | .seq [], _ => .error .indexError
  | .seq (x :: xs), shape =>
      let rest := getShape x (shape ++ [xs.length + 1])
      if x.isSequence then
        match x.len with
        | .error e => .error e
        | .ok l => match allLen l (x :: xs) with
            | .error e => .error e
            | .ok false => .error .valueError
            | .ok true => rest
      else rest

/-- Shape and elements of `np.asarray(x)` for a rectangular nested list; `none` for a ragged one (numpy raises
`ValueError`).  Used at /repo/intvalpy/kernel/preprocessing.py:106.  Simplification: arrays inside lists
are kept as blocks of elements, the limit of 64 axes is not represented, and empty lists inside lists are followed by
no further axes. -/
def npAsarray : Nest K → Option (List ℕ × List (K ⊕ Iv K))
  | .num c => some ([], [.inl c])
  | .iv x => some ([], [.inr x])
  | .arr sh data => some (sh, data.map .inr)
  | .nd sh data => some (sh, data.map .inl)
  | .seq xs =>
      match goList xs with
      | none => none
      | some [] => some ([0], [])
      | some ((sh, d) :: rest) =>
          if rest.all (fun p => p.1 = sh) then
            some ((rest.length + 1) :: sh, d ++ (rest.map Prod.snd).flatten)
          else none
where
  /-- The items of a list. -/
  goList : List (Nest K) → Option (List (List ℕ × List (K ⊕ Iv K)))
  | [] => some []
  | x :: xs => match npAsarray x, goList xs with
      | some p, some ps => some (p :: ps)
      | _, _ => none

variable [Field K] [LinearOrder K]

/-- `asinterval(el)` of one element: numbers become `Interval(x, x, sortQ=False)`, intervals are kept,
/repo/intvalpy/kernel/preprocessing.py:97-100. -/
def asIv (R : Rnd K) : K ⊕ Iv K → Except Err (Iv K)
  | .inl c => interval2 R c c false false
  | .inr x => .ok x

/-- What `asinterval` returns: a scalar interval or an interval array. -/
inductive IvOrArr (K : Type*)
  | iv (x : Iv K)
  | arr (shape : List ℕ) (data : List (Iv K))
  deriving DecidableEq

/-- `asinterval(x)`, /repo/intvalpy/kernel/preprocessing.py:83-108: anything that goes wrong while converting an
iterable ends in `TypeError`. -/
def asintervalNest (R : Rnd K) : Nest K → Except Err (IvOrArr K)
  | .iv x => .ok (.iv x)
  | .arr sh data => .ok (.arr sh data)
  | .num c => match interval2 R c c false false with
      | .ok x => .ok (.iv x)
      | .error e => .error e
  | x => match npAsarray x with
      | none => .error .typeError
      | some (sh, els) => match els.mapM (asIv R) with
          | .ok data => .ok (.arr sh data)
          | .error _ => .error .typeError

/-! ## `IPlot.scatter` -/

/-- What `scatter` passes to matplotlib for one pair of intervals: a marker, the outline of a degenerate box, or a
filled box, given by its four corners in drawing order. -/
inductive Mark (K : Type*)
  | dot (p : K × K)
  | outline (ps : List (K × K))
  | filled (ps : List (K × K))
  deriving DecidableEq

/-- The corners `(ox[:, i], oy[:, i])`, /repo/intvalpy/kernel/visualization.py:44-45. -/
def corners (x y : Iv K) : List (K × K) := [(x.a, y.a), (x.a, y.b), (x.b, y.b), (x.b, y.a)]

/-- The masks of /repo/intvalpy/kernel/visualization.py:34-43 for one index: `index_dot`, `full_fill`,
`scinny_fill`. -/
def scatterMasks (x y : Iv K) : Bool × Bool × Bool :=
  let flatx := decide (x.a = x.b)
  let flaty := decide (y.a = y.b)
  let dot := flatx && flaty
  (dot, (flatx || flaty) && !dot, !(flatx || flaty) && !dot)

/-- `scatter(x, y)` for one-dimensional interval arrays of equal length: markers first, then the outlines, then the
filled boxes, /repo/intvalpy/kernel/visualization.py:31-48.
Simplification: the endpoint views `x.a`, `x.b` are taken to be the stored endpoints (see C63); arrays of different
length are rejected by `&` (`ValueError`) unless one has length one, and empty ones by the views. -/
def scatter (xs ys : List (Iv K)) : Except Err (List (Mark K)) :=
  if xs = [] ∨ ys = [] ∨ xs.length ≠ ys.length then .error .valueError
  else
    let ps := xs.zip ys
    .ok ((ps.filter fun p => (scatterMasks p.1 p.2).1).map (fun p => Mark.dot (p.1.a, p.2.a)) ++
      (ps.filter fun p => (scatterMasks p.1 p.2).2.1).map (fun p => Mark.outline (corners p.1 p.2)) ++
      (ps.filter fun p => (scatterMasks p.1 p.2).2.2).map (fun p => Mark.filled (corners p.1 p.2)))

end IntvalPy
