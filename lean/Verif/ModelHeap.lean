import Verif.ModelBase
import Mathlib.Data.List.Basic
import Mathlib.Data.List.Nodup
import Mathlib.Data.List.Range

/-!
# Interval arrays as mutable objects: numpy buffers, views and copies

An `ArrayInterval` object holds a numpy array `_data` (/repo/intvalpy/kernel/real_intervals.py:14-19).  A numpy
array is a reference to a buffer together with the positions of its elements in that buffer; basic
indexing, transposition and reshaping return *views* of the same buffer, `np.array(x)` and `np.delete`
return fresh copies (numpy documentation).

Arrays are flattened in row-major order here: an index expression is represented by the list of flat
positions it selects.
-/

set_option autoImplicit false

namespace IntvalPy
namespace Heap

/-- A numpy array: buffer and offsets of its elements. -/
structure NdArr where
  buf : ℕ
  off : List ℕ
  deriving DecidableEq, Repr

/-- All live buffers and, for each live `ArrayInterval` object, its `_data` attribute. -/
structure St (α : Type) where
  heap : List (List α)
  objs : List NdArr

variable {α : Type}

/-- The elements of a numpy array. -/
def read (heap : List (List α)) (x : NdArr) : List α :=
  x.off.filterMap fun o => (heap.getD x.buf [])[o]?

/-- Allocation of a fresh array holding the given elements (`np.array`, `np.copy`, `np.delete`, arithmetic
results). -/
def alloc (heap : List (List α)) (vs : List α) : List (List α) × NdArr :=
  (heap ++ [vs], ⟨heap.length, List.range vs.length⟩)

/-- Basic indexing, `.T`, `.reshape`: a view, the same buffer with selected offsets. -/
def view (x : NdArr) (pos : List ℕ) : NdArr := ⟨x.buf, pos.filterMap fun p => x.off[p]?⟩

/-- Store one element through an array at a flat position. -/
def write1 (heap : List (List α)) (x : NdArr) (p : ℕ) (v : α) : List (List α) :=
  match x.off[p]? with
  | some o => heap.set x.buf ((heap.getD x.buf []).set o v)
  | none => heap

/-- Store elements through an array at flat positions, one after the other. -/
def write (heap : List (List α)) (x : NdArr) (pos : List ℕ) (vs : List α) : List (List α) :=
  (pos.zip vs).foldl (fun h pv => write1 h x pv.1 pv.2) heap

/-- The operations on `ArrayInterval` objects; objects are named by their number. -/
inductive Op (α : Type)
  /-- `Interval(...)` of a list of elements, /repo/intvalpy/kernel/real_intervals.py:471. -/
  | new (vs : List α)
  /-- `X.copy()`, `copy.deepcopy(X)`, lines 129-133. -/
  | copy (i : ℕ)
  /-- `X[key]` selecting an array, `X.T`, `X.reshape(...)`, lines 138-143, 213-218. -/
  | getitem (i : ℕ) (pos : List ℕ)
  /-- `X[key] = v` for one interval or number, lines 220-222, 225-227. -/
  | setitemScalar (i : ℕ) (pos : List ℕ) (v : α)
  /-- `X[key] = Y` for an interval array, lines 223-224. -/
  | setitemArray (i : ℕ) (pos : List ℕ) (j : ℕ)
  /-- `del X[key]`, lines 231-244; the positions are those `np.delete` removes. -/
  | delitem (i : ℕ) (pos : List ℕ)
  /-- `X + Y`, `-X`, `abs(X)`, `X @ Y`, ...: an element-by-element or matrix function of one or two arrays with a
  new array as the result, lines 145-153, 246-305. -/
  | compute (i j : ℕ) (f : List α → List α → Except Err (List α))
  /-- `X += Y` and the like, lines 307-321. -/
  | augmented (i j : ℕ) (f : List α → List α → Except Err (List α))

/-- Execution of one operation: new state, or the exception that left the state unchanged. -/
def step (s : St α) : Op α → Except Err (St α)
  | .new vs =>
      let r := alloc s.heap vs
      .ok ⟨r.1, s.objs ++ [r.2]⟩
  | .copy i =>
      match s.objs[i]? with
      | none => .error .attributeError
      | some x =>
          -- `np.copy(self._data)` and then `np.array(intervals)` in the constructor
          let r1 := alloc s.heap (read s.heap x)
          let r2 := alloc r1.1 (read r1.1 r1.2)
          .ok ⟨r2.1, s.objs ++ [r2.2]⟩
  | .getitem i pos =>
      match s.objs[i]? with
      | none => .error .attributeError
      | some x =>
          if pos.all (· < x.off.length) then
            -- `result = self._data[key]` is a view, `ArrayInterval(result)` copies it
            let v := view x pos
            let r := alloc s.heap (read s.heap v)
            .ok ⟨r.1, s.objs ++ [r.2]⟩
          else .error .indexError
  | .setitemScalar i pos v =>
      match s.objs[i]? with
      | none => .error .attributeError
      | some x =>
          if pos.all (· < x.off.length) then
            .ok ⟨write s.heap x pos (pos.map fun _ => v), s.objs⟩
          else .error .indexError
  | .setitemArray i pos j =>
      match s.objs[i]?, s.objs[j]? with
      | some x, some y =>
          if pos.all (· < x.off.length) then
            -- numpy reads the right-hand side before it writes (overlapping operands are buffered)
            let vs := read s.heap y
            if vs.length = pos.length then .ok ⟨write s.heap x pos vs, s.objs⟩
            else .error .valueError
          else .error .indexError
      | _, _ => .error .attributeError
  | .delitem i pos =>
      match s.objs[i]? with
      | none => .error .attributeError
      | some x =>
          if pos.all (· < x.off.length) then
            let vs := read s.heap x
            let keep := (List.range vs.length).filter fun p => p ∉ pos
            let r := alloc s.heap (keep.filterMap fun p => vs[p]?)
            .ok ⟨r.1, s.objs.set i r.2⟩
          else .error .indexError
  | .compute i j f =>
      match s.objs[i]?, s.objs[j]? with
      | some x, some y =>
          match f (read s.heap x) (read s.heap y) with
          | .error e => .error e
          | .ok vs =>
              -- the result array, and its copy made by the constructor
              let r1 := alloc s.heap vs
              let r2 := alloc r1.1 (read r1.1 r1.2)
              .ok ⟨r2.1, s.objs ++ [r2.2]⟩
      | _, _ => .error .attributeError
  | .augmented i j f =>
      match s.objs[i]?, s.objs[j]? with
      | some x, some y =>
          match f (read s.heap x) (read s.heap y) with
          | .error e => .error e
          | .ok vs =>
              let r := alloc s.heap vs
              .ok ⟨r.1, s.objs.set i r.2⟩
      | _, _ => .error .attributeError

/-- A whole program: exceptions are caught by the caller, who goes on with the unchanged state. -/
def run (s : St α) : List (Op α) → St α
  | [] => s
  | o :: os => match step s o with
      | .ok s' => run s' os
      | .error _ => run s os

end Heap
end IntvalPy
