import Verif.ModelBoundary

/-!
# Solution sets of inequality systems in space

`ChangeVariable`, `lineqs3D` and `IntLinIncR3` of /repo/intvalpy/linear/boundary_intervals.py.  Point arithmetic is
exact; drawing is left out.
-/

set_option autoImplicit false
set_option linter.unusedSectionVars false

namespace IntvalPy

variable {K : Type*} [Field K] [LinearOrder K] [FloorRing K]

/-- A point of space. -/
abbrev V3 (K : Type*) := K × K × K

/-- A row of a system with three unknowns. -/
abbrev Ineq3 (K : Type*) := V3 K × K

/-- `a @ x`. -/
def dot3 (a x : V3 K) : K := a.1 * x.1 + a.2.1 * x.2.1 + a.2.2 * x.2.2

/-- `np.cross(a, y)`. -/
def cross3 (a y : V3 K) : V3 K :=
  (a.2.1 * y.2.2 - a.2.2 * y.2.1, a.2.2 * y.1 - a.1 * y.2.2, a.1 * y.2.1 - a.2.1 * y.1)

/-- `xi`, /repo/intvalpy/linear/boundary_intervals.py:93. -/
def cvOrigin (r : Ineq3 K) : V3 K :=
  (r.1.1 * r.2 / dot3 r.1 r.1, r.1.2.1 * r.2 / dot3 r.1 r.1, r.1.2.2 * r.2 / dot3 r.1 r.1)

/-- `y1`, /repo/intvalpy/linear/boundary_intervals.py:95-99: `l` is the first position of the least modulus, the
other two components are exchanged and one of them changes its sign. -/
def cvFirst (a : V3 K) : V3 K :=
  if |a.1| ≤ |a.2.1| ∧ |a.1| ≤ |a.2.2| then (0, a.2.2, -a.2.1)
  else if |a.2.1| ≤ |a.2.2| then (-a.2.2, 0, a.1)
  else (a.2.1, -a.1, 0)

/-- `y2`, /repo/intvalpy/linear/boundary_intervals.py:100. -/
def cvSecond (a : V3 K) : V3 K := cross3 a (cvFirst a)

/-- The row of another inequality in the new variables, /repo/intvalpy/linear/boundary_intervals.py:105-106. -/
def cvRow (r s : Ineq3 K) : Ineq2 K :=
  ((dot3 s.1 (cvFirst r.1), dot3 s.1 (cvSecond r.1)), s.2 - dot3 s.1 (cvOrigin r))

/-- `(xi + y1*u) + y2*v`, /repo/intvalpy/linear/boundary_intervals.py:442, 497. -/
def cvPoint (r : Ineq3 K) (p : K × K) : V3 K :=
  ((cvOrigin r).1 + (cvFirst r.1).1 * p.1 + (cvSecond r.1).1 * p.2,
   (cvOrigin r).2.1 + (cvFirst r.1).2.1 * p.1 + (cvSecond r.1).2.1 * p.2,
   (cvOrigin r).2.2 + (cvFirst r.1).2.2 * p.1 + (cvSecond r.1).2.2 * p.2)

/-- `clear_zero_rows(At, bt)` for rows of the plane, /repo/intvalpy/kernel/preprocessing.py:35-44. -/
def clear2 (S : List (Ineq2 K)) : List (Ineq2 K) × Bool :=
  let cz := clearZeroRows (d := 2) 2 (S.map fun r => (![r.1.1, r.1.2], r.2))
  (cz.1.map fun r => ((r.1 0, r.1 1), r.2), cz.2)

/-- `ChangeVariable(A, b, k)` followed by `clear_zero_rows(At, bt)`,
/repo/intvalpy/linear/boundary_intervals.py:91-108 and 423-424, 486-487.  With one row the index array is an empty
array of floats and indexing with it raises `IndexError`.  A zero row makes numpy divide zero by zero in line 93
(`nan`); `lineqs3D` removes such rows first, and the model reports it as an error. -/
def changeVariable (S : List (Ineq3 K)) (k : Nat) (r : Ineq3 K) : Except Err (List (Ineq2 K) × Bool) :=
  if S.length ≤ 1 then .error .indexError
  else if dot3 r.1 r.1 = 0 then .error .zeroDivisionError
  else .ok (clear2 ((S.eraseIdx k).map (cvRow r)))

/-- An element of the list `PP`: the point `xi` itself (line 430) or a list of points (line 444). -/
inductive PPEntry (K : Type*) where
  | point (x : V3 K)
  | points (P : List (V3 K))

/-- One pass of the first loop of `lineqs3D`, /repo/intvalpy/linear/boundary_intervals.py:423-449: the element
appended to `PP`, if any, and whether `cfinite` is kept; the list `V` is not used. -/
def faceEntry (eps : K) (S : List (Ineq3 K)) (k : Nat) (r : Ineq3 K) : Except Err (Option (PPEntry K × Bool)) :=
  match changeVariable S k r with
  | .error e => .error e
  | .ok (_, false) => .ok none
  | .ok ([], true) => .ok (some (.point (cvOrigin r), false))
  | .ok (T, true) =>
      match boundaryIntervals eps T with
      | .error e => .error e
      | .ok none => .ok none
      | .ok (some []) => .ok none
      | .ok (some E) =>
          .ok (some (.points ((particularPoints T E).1.map (cvPoint r)), !(particularPoints T E).2))

/-- The first loop of `lineqs3D`, /repo/intvalpy/linear/boundary_intervals.py:422-449: `PP` and `cfinite`. -/
def faceLoop (eps : K) (S : List (Ineq3 K)) : List (Nat × Ineq3 K) → Except Err (List (PPEntry K) × Bool)
  | [] => .ok ([], true)
  | (k, r) :: rest =>
      match faceEntry eps S k r with
      | .error e => .error e
      | .ok o =>
          match faceLoop eps S rest with
          | .error e => .error e
          | .ok (PP, fin) =>
              match o with
              | none => .ok (PP, fin)
              | some (p, f) => .ok (p :: PP, f && fin)

/-- The lists `x`, `y`, `z` of lines 456-465 as one list of points; `el[0]` of a number raises `IndexError`. -/
def ppPoints : List (PPEntry K) → Except Err (List (V3 K))
  | [] => .ok []
  | .point _ :: _ => .error .indexError
  | .points P :: rest =>
      match ppPoints rest with
      | .error e => .error e
      | .ok Q => .ok (P ++ Q)

/-- `np.min` and `np.max` of a coordinate. -/
def spread : List K → K
  | [] => 0
  | x :: xs => xs.foldl max x - xs.foldl min x

/-- The centre (the same number for all three axes) and the half-width of the window,
/repo/intvalpy/linear/boundary_intervals.py:467-474: `(x + y + z).mean()` and the sum of the three spreads. -/
def centerRm3 (P : List (V3 K)) : K × K :=
  let c : K := (P.map fun p => p.1 + p.2.1 + p.2.2).sum / P.length
  let rm : K := spread (P.map fun p => p.1) + spread (P.map fun p => p.2.1) + spread (P.map fun p => p.2.2)
  if rm ≤ 1 / 10 ^ (14 : ℕ) then (c, rm + 1) else (c, rm)

/-- The rows `x ≥ lo`, `-x ≥ -hi`, /repo/intvalpy/linear/boundary_intervals.py:476-481. -/
def windowRows3 (lo hi : V3 K) : List (Ineq3 K) :=
  [((1, 0, 0), lo.1), ((0, 1, 0), lo.2.1), ((0, 0, 1), lo.2.2),
   ((-1, 0, 0), -hi.1), ((0, -1, 0), -hi.2.1), ((0, 0, -1), -hi.2.2)]

/-- One pass of the second loop of `lineqs3D`, /repo/intvalpy/linear/boundary_intervals.py:486-500: the closed path
around a face, if there is one.  Infinite coordinates cannot be left (see `segsOf`). -/
def facePath (eps : K) (S : List (Ineq3 K)) (k : Nat) (r : Ineq3 K) : Except Err (Option (List (V3 K))) :=
  match changeVariable S k r with
  | .error e => .error e
  | .ok (_, false) => .ok none
  | .ok (T, true) =>
      match boundaryIntervals eps T with
      | .error e => .error e
      | .ok none => .ok none
      | .ok (some []) => .ok none
      | .ok (some E) =>
          match segsOf E with
          | none => .error .exception
          | some segs =>
              match intervals2Path segs with
              | .error e => .error e
              | .ok P => .ok (some (P.map (cvPoint r)))

/-- The second loop of `lineqs3D`, /repo/intvalpy/linear/boundary_intervals.py:483-500. -/
def pathsLoop (eps : K) (S : List (Ineq3 K)) : List (Nat × Ineq3 K) → Except Err (List (List (V3 K)))
  | [] => .ok []
  | (k, r) :: rest =>
      match facePath eps S k r with
      | .error e => .error e
      | .ok o =>
          match pathsLoop eps S rest with
          | .error e => .error e
          | .ok Ps =>
              match o with
              | none => .ok Ps
              | some P => .ok (P :: Ps)

/-- `clear_zero_rows(A, b, ndim=3)` and `non_repeat(A, b)`, /repo/intvalpy/linear/boundary_intervals.py:411-412. -/
def prepare3 (S : List (Ineq3 K)) : List (Ineq3 K) :=
  (nonRepeat (clearZeroRows (d := 3) 3 (S.map fun r => (![r.1.1, r.1.2.1, r.1.2.2], r.2))).1).map
    fun r => ((r.1 0, r.1 1, r.1 2), r.2)

/-- `lineqs3D(A, b, show=False, bounds=bounds)`, /repo/intvalpy/linear/boundary_intervals.py:352-528, for a matrix
with three columns; the state is the module-level list `__center_rm`. -/
def lineqs3D (eps : K) (S : List (Ineq3 K)) (bounds : Option (V3 K × V3 K)) (st : List K) :
    Hist K (List (List (V3 K))) :=
  let S := prepare3 S
  match faceLoop eps S (numbered S) with
  | .error e => (.error e, st)
  | .ok ([], _) => (.ok [], st)
  | .ok (_, true) => (pathsLoop eps S (numbered S), st)
  | .ok (PP, false) =>
      match bounds with
      | none =>
          match ppPoints PP with
          | .error e => (.error e, st)
          | .ok P =>
              let w := centerRm3 P
              let S' := S ++ windowRows3 (w.1 - w.2, w.1 - w.2, w.1 - w.2) (w.1 + w.2, w.1 + w.2, w.1 + w.2)
              (pathsLoop eps S' (numbered S'), st ++ [|w.1| + w.2])
      | some (lo, hi) =>
          let S' := S ++ windowRows3 lo hi
          (pathsLoop eps S' (numbered S'), st)

/-- The eight orthants, /repo/intvalpy/linear/boundary_intervals.py:598-599. -/
def orthants3 : List (Fin 3 → Bool) :=
  [![true, true, true], ![false, true, true], ![false, false, true], ![true, false, true],
   ![true, true, false], ![false, true, false], ![false, false, false], ![true, false, false]]

/-- The local function `algo(bounds)` of `IntLinIncR3`, /repo/intvalpy/linear/boundary_intervals.py:606-644; the
extreme coordinates it returns are used for drawing only. -/
def algo3 (eps : K) {n : Nat} (A : Fin n → Fin 3 → Iv K) (b : Fin n → Iv K) (cons : Consistency)
    (bounds : Option (V3 K × V3 K)) :
    List (Fin 3 → Bool) → List K → Hist K (List (List (List (V3 K))))
  | [], st => (.ok [], st)
  | o :: os, st =>
      match orthantRows shift3 A b o cons with
      | .error e => (.error e, st)
      | .ok rows =>
          match lineqs3D eps (rows.map fun r => ((r.1 0, r.1 1, r.1 2), r.2)) bounds st with
          | (.error e, st) => (.error e, st)
          | (.ok v, st) =>
              match algo3 eps A b cons bounds os st with
              | (.error e, st) => (.error e, st)
              | (.ok vs, st) => (.ok (v :: vs), st)

/-- `IntLinIncR3(A, b, consistency, bounds, show=False)` for an interval matrix with three columns and an interval
vector, /repo/intvalpy/linear/boundary_intervals.py:598-656, 699. -/
def intLinIncR3 (eps : K) {n : Nat} (A : Fin n → Fin 3 → Iv K) (b : Fin n → Iv K) (cons : Consistency)
    (bounds : Option (V3 K × V3 K)) (st : List K) : Hist K (List (List (List (V3 K)))) :=
  match algo3 eps A b cons bounds orthants3 st with
  | (.error e, st) => (.error e, st)
  | (.ok vs, st) =>
      if st.length > 0 then
        let mx := listMax st
        match algo3 eps A b cons (some ((-mx, -mx, -mx), (mx, mx, mx))) orthants3 st with
        | (.error e, st) => (.error e, st)
        | (.ok vs, _) => (.ok vs, [])
      else (.ok vs, [])

end IntvalPy
