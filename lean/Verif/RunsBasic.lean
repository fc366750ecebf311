import Verif.ModelRuns
import Verif.ModelArray

/-!
# The assertions of the project's own tests

/repo/test/test_basic.py and /repo/test/interval_properties.py hold assertions about single operations.  Each of
them is evaluated here by the model at the level of the doubles (integers stay Python integers).  All of them hold
except one: `Interval(1, 2) / Interval(2, 5) == Interval(0.2, 1)`, /repo/test/test_basic.py:46, because the quotient
`1 / 5` is rounded downwards and the literal `0.2` is above `1 / 5` (`div_fifth`).  Nothing is claimed about the code
by these checks; they are evidence that the models follow the code.
-/

set_option autoImplicit false

namespace IntvalPy
namespace RunsBasic

/-- The numbers occurring in the assertions: integers and the decimal literals `0.5`, `0.25`, `1.5`. -/
def f (q : ℚ) : Num := .dbl (.fin q)

/-- `Interval(l, r)`. -/
def I (l r : Num) : FIv :=
  match fSingle .nearest l r true false with
  | .ok X => X
  | .error _ => ⟨.classical, .dbl .nan, .dbl .nan⟩

/-- `Interval(l, r, sortQ=False)`. -/
def U (l r : Num) : FIv :=
  match fSingle .nearest l r false false with
  | .ok X => X
  | .error _ => ⟨.classical, .dbl .nan, .dbl .nan⟩

/-- `assert r == X`, in the default rounding mode. -/
def is (r : M FIv) (X : FIv) : Bool :=
  match (r .nearest).1 with
  | .ok Y => Y.eqN X
  | .error _ => false

/-- A Python integer. -/
def i (z : ℤ) : Num := .int z

/-- `x ** n` of Python integers. -/
def intPow (_ : Mode) (x : Num) (n : ℕ) : Except Err Num :=
  match x with
  | .int z => .ok (.int (z ^ n))
  | .dbl _ => .error .typeError

/-- `x ** n`. -/
def pw (X : FIv) (n : ℕ) : M FIv :=
  match X.cls with
  | .classical => FIv.powC intPow X n
  | .kaucher => FIv.powK intPow X n

/-- /repo/test/test_basic.py:10-19. -/
def add : List Bool := [
  is (FIv.radd (i 2) (I (i 1) (i 2))) (I (i 3) (i 4)),
  is (FIv.radd (i (-1)) (I (i (-2)) (i 1))) (I (i (-3)) (i 0)),
  is (FIv.add (I (i 1) (i 2)) (I (i (-2)) (i 3))) (I (i (-1)) (i 5)),
  is (FIv.add (I (i 1) (i 2)) (U (i 3) (i (-2)))) (U (i 4) (i 0)),
  is (FIv.radd (i 2) (U (i 2) (i 1))) (U (i 4) (i 3)),
  is (FIv.radd (i (-1)) (U (i 1) (i (-2)))) (U (i 0) (i (-3))),
  is (FIv.add (U (i 3) (i (-2))) (I (i (-1)) (i 2))) (U (i 2) (i 0)),
  is (FIv.add (U (i 3) (i (-2))) (U (i 2) (i (-1)))) (U (i 5) (i (-3)))]

/-- /repo/test/test_basic.py:21-30. -/
def sub : List Bool := [
  is (FIv.subNum (I (i 1) (i 2)) (i 2)) (I (i (-1)) (i 0)),
  is (FIv.rsub (i (-1)) (I (i (-2)) (i 1))) (I (i (-2)) (i 1)),
  is (FIv.sub (I (i 1) (i 2)) (I (i (-2)) (i 3))) (I (i (-2)) (i 4)),
  is (FIv.sub (I (i 1) (i 2)) (U (i 3) (i (-2)))) (U (i 3) (i (-1))),
  is (FIv.subNum (U (i 2) (i 1)) (i 2)) (U (i 0) (i (-1))),
  is (FIv.rsub (i (-1)) (U (i 1) (i (-2)))) (U (i 1) (i (-2))),
  is (FIv.sub (U (i 3) (i (-2))) (I (i (-1)) (i 2))) (U (i 1) (i (-1))),
  is (FIv.sub (U (i 3) (i (-2))) (U (i 2) (i (-1)))) (U (i 4) (i (-4)))]

/-- /repo/test/test_basic.py:32-41. -/
def mul : List Bool := [
  is (FIv.rmul (i 2) (I (i 1) (i 2))) (I (i 2) (i 4)),
  is (FIv.rmul (i (-1)) (I (i (-2)) (i 1))) (I (i (-1)) (i 2)),
  is (FIv.mul (I (i 1) (i 2)) (I (i (-2)) (i 3))) (I (i (-4)) (i 6)),
  is (FIv.mul (I (i 1) (i 2)) (U (i 3) (i (-2)))) (U (i 3) (i (-2))),
  is (FIv.rmul (i 2) (U (i 2) (i 1))) (U (i 4) (i 2)),
  is (FIv.rmul (i (-1)) (U (i 1) (i (-2)))) (U (i 2) (i (-1))),
  is (FIv.mul (U (i 3) (i (-2))) (I (i (-1)) (i 2))) (U (i 0) (i 0)),
  is (FIv.mul (U (i 3) (i (-2))) (U (i 2) (i (-1)))) (U (i 6) (i (-4)))]

/-- /repo/test/test_basic.py:43-52. -/
def div : List Bool := [
  is (FIv.divNum (I (i 1) (i 2)) (i 2)) (I (f (1 / 2)) (i 1)),
  is (FIv.rdiv (i (-1)) (I (i (-2)) (i (-1)))) (I (f (1 / 2)) (i 1)),
  is (FIv.div (I (i 1) (i 2)) (I (i 2) (i 5))) (I (f (nearTo (1 / 5))) (i 1)),
  is (FIv.div (I (i 1) (i 2)) (U (i 4) (i 2))) (U (f (1 / 2)) (f (1 / 2))),
  is (FIv.divNum (U (i 2) (i 1)) (i 2)) (U (i 1) (f (1 / 2))),
  is (FIv.rdiv (i (-1)) (U (i (-1)) (i (-2)))) (U (i 1) (f (1 / 2))),
  is (FIv.div (U (i 3) (i (-2))) (I (i (-1)) (i (-2)))) (U (i 1) (f (-3 / 2))),
  is (FIv.div (U (i 3) (i (-2))) (U (i 2) (i 1))) (U (i 3) (i (-2)))]

/-- /repo/test/test_basic.py:54-69. -/
def pow : List Bool := [
  is (pw (I (i (-2)) (i 3)) 2) (I (i 0) (i 9)),
  is (pw (I (i 2) (i 3)) 2) (I (i 4) (i 9)),
  is (pw (I (i (-3)) (i (-2))) 2) (I (i 4) (i 9)),
  is (pw (I (i (-2)) (i 3)) 3) (I (i (-8)) (i 27)),
  is (pw (I (i 2) (i 3)) 3) (I (i 8) (i 27)),
  is (pw (I (i (-3)) (i (-2))) 3) (I (i (-27)) (i (-8))),
  is (pw (U (i 3) (i (-2))) 2) (U (i 9) (i 0)),
  is (pw (U (i 3) (i 2)) 2) (U (i 9) (i 4)),
  is (pw (U (i (-2)) (i (-3))) 2) (U (i 4) (i 9)),
  is (pw (U (i 3) (i (-2))) 3) (U (i 27) (i (-8))),
  is (pw (U (i 3) (i 2)) 3) (U (i 27) (i 8)),
  is (pw (U (i (-2)) (i (-3))) 3) (U (i (-8)) (i (-27)))]

/-- A product of a row and a column of intervals, as numpy forms it for elements of type `object`. -/
def dot : List FIv → List FIv → M FIv
  | [], _ => M.raise .valueError
  | _, [] => M.raise .valueError
  | X :: Xs, Y :: Ys => do
      let p ← FIv.mul X Y
      (Xs.zip Ys).foldlM (fun s Z => do let q ← FIv.mul Z.1 Z.2; FIv.add s q) p

/-- `((x @ A) @ B) @ x`, /repo/test/test_basic.py:71-83. -/
def matmul : M FIv := do
  let A11 := I (i 2) (i 4); let A12 := I (i (-2)) (i 1); let A21 := I (i (-1)) (i 2); let A22 := I (i 2) (i 4)
  let B11 := I (i 1) (i 2); let B12 := I (i (-7)) (i 6); let B21 := I (i (-7)) (i 6); let B22 := I (i 1) (i 2)
  let x := [I (i (-2)) (i 2), I (i 1) (i 2)]
  let y1 ← dot x [A11, A21]
  let y2 ← dot x [A12, A22]
  let z1 ← dot [y1, y2] [B11, B21]
  let z2 ← dot [y1, y2] [B12, B22]
  dot [z1, z2] x

/-- `assert r == x` for numbers. -/
def num (r : Except Err Num) (x : Num) : Bool :=
  match r with
  | .ok y => y.eqN x
  | .error _ => false

/-- An interval with rational endpoints, for the attributes that only rearrange the endpoints. -/
def V (a b : ℚ) : Iv ℚ := mkIv a b

/-- `assert X == Y`. -/
def same (X Y : Iv ℚ) : Bool := X.a = Y.a ∧ X.b = Y.b

/-- The two elements of `Interval([[-1, 2], [0.5, 0]], sortQ=False)`; numpy makes all four numbers floats. -/
def e0 : FIv := U (f (-1)) (f 2)
/-- See `e0`. -/
def e1 : FIv := U (f (1 / 2)) (f 0)

/-- /repo/test/interval_properties.py:42-69: `wid`, `rad`, `mid`, `mig`, `mag`. -/
def attributes : List Bool := [
  num ((I (i 2) (i 4)).widN .nearest) (i 2), num ((U (i 1) (i (-2))).widN .nearest) (i (-3)),
  num (e0.widN .nearest) (i 3), num (e1.widN .nearest) (f (-1 / 2)),
  num ((I (i 2) (i 4)).radN .nearest) (i 1), num ((U (i 1) (i (-2))).radN .nearest) (f (-3 / 2)),
  num (e0.radN .nearest) (f (3 / 2)), num (e1.radN .nearest) (f (-1 / 4)),
  num ((I (i 2) (i 4)).midN .nearest) (i 3), num ((U (i 1) (i (-2))).midN .nearest) (f (-1 / 2)),
  num (e0.midN .nearest) (f (1 / 2)), num (e1.midN .nearest) (f (1 / 4)),
  num (I (i 2) (i 4)).migN (i 2), num (U (i 1) (i (-2))).migN (i 1), num e0.migN (i 0), num e1.migN (i 0),
  num (I (i 2) (i 4)).magN (i 4), num (U (i 1) (i (-2))).magN (i 2), num e0.magN (i 2), num e1.magN (f (1 / 2))]

/-- /repo/test/interval_properties.py:72-87: `dual`, `pro`, `opp`. -/
def turned : List Bool := [
  same (V (-2) 3).dual (V 3 (-2)), same (V 3 (-2)).dual (V (-2) 3),
  same (V (-2) 3).pro (V (-2) 3), same (V 3 (-2)).pro (V (-2) 3),
  same (V (-2) 3).opp (V 2 (-3)), same (V 3 (-2)).opp (V (-3) 2)]

/-- /repo/test/interval_properties.py:90-93: `inv`. -/
def inverse : List Bool := [
  is (I (i 1) (i 4)).inv (U (i 1) (f (1 / 4))), is (U (i 4) (i (-2))).inv (U (f (1 / 4)) (f (-1 / 2)))]

/-- All assertions about sums, differences, products, powers and matrix products hold. -/
theorem basic_hold : (add ++ sub ++ mul ++ pow ++ [is matmul (I (i (-384)) (i 400))]).all id = true := by
  decide +kernel

/-- All assertions about the attributes hold. -/
theorem attributes_hold : (attributes ++ turned ++ inverse).all id = true := by decide +kernel

/-- Of the assertions about quotients exactly the third one fails. -/
theorem div_hold : div = [true, true, false, true, true, true, true, true] := by decide +kernel

/-- The lower end of `Interval(1, 2) / Interval(2, 5)` is the double below `0.2`; it is below `1 / 5` as it must be,
and the literal `0.2` is not. -/
theorem div_fifth : ((FIv.div (I (i 1) (i 2)) (I (i 2) (i 5))) .nearest).1.toOption.map (fun X => (X.a, X.b)) =
      some (f (floorTo (1 / 5)), f 1) ∧ floorTo (1 / 5 : ℚ) < 1 / 5 ∧ (1 / 5 : ℚ) < nearTo (1 / 5) := by
  decide +kernel

end RunsBasic
end IntvalPy
