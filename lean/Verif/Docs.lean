import Verif.ModelBoundary
import Verif.ModelLinear
import Verif.ModelRecFun
import Verif.ModelArray
import Verif.ModelObjects

/-!
# The examples printed in the documentation

The documentation shows calls together with the values they returned.  Here the model of each function is
run on the same arguments and compared with the printed value.  Nothing is claimed about the code by these
checks; they are evidence that the models follow the code.

* /repo/doc/src/linear.rst:127-142, `lineqs`: all twelve vertices in the printed order;
* /repo/doc/src/linear.rst:378-381, `Gauss`;
* /repo/doc/src/linear.rst:417-423 and 431-435, `Gauss_Seidel`: the printed box, completed to exact fractions,
  is reproduced by one more pass of the loop;
* /repo/doc/src/linear.rst:528-531 and 539-541, `Rohn`: the printed radius is reproduced by one more pass;
* /repo/doc/src/data_fitting.rst:69-78 and 212-221, `Tol.value` and `Uni.value`;
* /repo/doc/src/data_fitting.rst:151-166 and 297-312, a constrained maximisation: the printed result cannot be
  reproduced with the present code, because the penalty factor it computes is infinite (C68);
* /repo/doc/src/general.rst:106-119, `intersection`; the second example raises in the present code;
* /repo/doc/src/guide.rst:98-110, the product of two matrices;
* /repo/test/tolerable_solution_set_estimation_tests.py: both tests of `Neumaier`;
* /repo/examples/example.ipynb: `Gauss`, and `Uni` (now `Uni.value`) at a point.

The results of `Tol.maximize` and `Uni.maximize` without constraints are reproduced in `RunsRalg`.
-/

set_option autoImplicit false

namespace IntvalPy
namespace Docs

/-- A classical interval. -/
def c (a b : ℚ) : Iv ℚ := ⟨.classical, a, b⟩

/-- The endpoints of a result. -/
def ends {n : ℕ} (r : Except Err (Fin n → Iv ℚ)) : Option (List (ℚ × ℚ)) :=
  r.toOption.map fun x => (List.ofFn x).map fun X => (X.a, X.b)

/-- The inverse of a matrix of order two, in place of `np.linalg.inv`. -/
def inv2 (M : Fin 2 → Fin 2 → ℚ) : Except Err (Fin 2 → Fin 2 → ℚ) :=
  let d := M 0 0 * M 1 1 - M 0 1 * M 1 0
  if d = 0 then .error .linAlgError else .ok ![![M 1 1 / d, -M 0 1 / d], ![-M 1 0 / d, M 0 0 / d]]

/-- The system of twelve inequalities, /repo/doc/src/linear.rst:127-139. -/
def twelve : List (Ineq2 ℚ) :=
  ([((-3, -1), 18), ((-2, -2), 16), ((-1, -3), 18), ((1, -3), 18), ((2, -2), 16), ((3, -1), 18), ((3, 1), 18),
    ((2, 2), 16), ((1, 3), 18), ((-1, 3), 18), ((-2, 2), 16), ((-3, 1), 18)] : List (Ineq2 ℚ)).map
    fun r => ((-r.1.1, -r.1.2), -r.2)

/-- /repo/doc/src/linear.rst:140-142. -/
theorem lineqs_twelve : (lineqs 0 twelve none []).1.toOption =
    some [(-5, -3), (-6, 0), (-5, 3), (-3, 5), (0, 6), (3, 5), (5, 3), (6, 0), (5, -3), (3, -5), (0, -6),
      (-3, -5)] := by decide +kernel

/-- The matrix of Barth and Nuding, /repo/doc/src/linear.rst:378. -/
def barth : Fin 2 → Fin 2 → Iv ℚ := ![![c 2 4, c (-2) 1], ![c (-1) 2, c 2 4]]

/-- /repo/doc/src/linear.rst:379-381. -/
theorem gauss_barth : ends (gauss Rnd.exact barth ![c (-2) 2, c (-2) 2]) = some [(-5, 5), (-4, 4)] := by
  decide +kernel

/-- One more pass of the loop of `Gauss_Seidel` after preconditioning. -/
def gsAgain (C : Precond ℚ 2) (A : Fin 2 → Fin 2 → Iv ℚ) (b X : Fin 2 → Iv ℚ) : Option (List (ℚ × ℚ)) :=
  ends (gsSweep Rnd.exact (C.mulMat Rnd.exact A) (C.mulVec Rnd.exact b) X (List.finRange 2) fun _ => zeroIv)

/-- The preconditioner chosen by `Gauss_Seidel` for `barth`: the inverse of the midpoints. -/
def barthInv : Precond ℚ 2 := .point ![![12 / 37, 2 / 37], ![-2 / 37, 12 / 37]]

/-- It is what the code computes. -/
theorem barthInv_eq : (gsPrecond Rnd.exact inv2 barth none).toOption.map
    (fun C => match C with | .point M => [M 0 0, M 0 1, M 1 0, M 1 1] | .iv _ => []) =
    some [12 / 37, 2 / 37, -2 / 37, 12 / 37] := by decide +kernel

/-- /repo/doc/src/linear.rst:421-423: `[-10.6623, 12.5714]` and `[-11.0649, 12.4286]`. -/
theorem gs_barth : gsAgain barthInv barth ![c 1 2, c 1 2] ![c (-821 / 77) (88 / 7), c (-852 / 77) (87 / 7)] =
    some [(-821 / 77, 88 / 7), (-852 / 77, 87 / 7)] := by decide +kernel

/-- /repo/doc/src/data_fitting.rst:69-78. -/
theorem tol_value : (tolValue Rnd.exact ![![c 2 4, c (-1) 2], ![c (-2) 1, c 2 4]] ![c (-2) 2, c (-2) 2] (fun _ => 1)
    ![1, 2]).toOption = some (-7) := by decide +kernel

/-- /repo/doc/src/data_fitting.rst:212-221. -/
theorem uni_value : (uniValue Rnd.exact ![![c 2 4, c (-1) 2], ![c (-2) 1, c 2 4]] ![c (-2) 2, c (-2) 2] (fun _ => 1)
    ![1, 2]).toOption = some 0 := by decide +kernel

/-- The matrix of /repo/doc/src/linear.rst:431-432. -/
def special : Fin 2 → Fin 2 → Iv ℚ :=
  ![![c (1 / 2) (1176 / 1000), c (-456 / 1000) (448 / 1000)], ![c (-438 / 1000) (596 / 1000), c (624 / 1000) (136 / 100)]]

/-- `ip.eye(2)`. -/
def eye2 : Precond ℚ 2 := .iv ![![c 1 1, c 0 0], ![c 0 0, c 1 1]]

/-- /repo/doc/src/linear.rst:434-435: `[-4.26676, 6.07681]` and `[-5.37144, 5.26546]`. -/
theorem gs_special : gsAgain eye2 special ![c (316 / 1000) (632 / 1000), c (27 / 100) (624 / 1000)]
    ![c (-15787 / 3700) (4272 / 703), c (-30209 / 5624) (48121 / 9139)] =
    some [(-15787 / 3700, 4272 / 703), (-30209 / 5624, 48121 / 9139)] := by decide +kernel

/-- The number shown with six decimals: `round(10 ** 6 * q)`. -/
def six (q : ℚ) : ℤ := (q * 1000000 + 1 / 2).floor

/-- /repo/examples/example.ipynb, `Gauss(A, b)`: `[-11.094065, 13.199459]` and `[-5.371444, 13.087127]`. -/
theorem gauss_special : (ends (gauss Rnd.exact special ![c (316 / 1000) (632 / 1000), c (27 / 100) (624 / 1000)])).map
    (List.map fun p => (six p.1, six p.2)) = some [(-11094065, 13199459), (-5371444, 13087127)] := by decide +kernel

/-- /repo/examples/example.ipynb, `Uni(A, b, x)`: `-1.0`. -/
theorem uni_value_barth : (uniValue Rnd.exact barth ![c (-2) 2, c (-2) 2] (fun _ => 1) ![1, 2]).toOption = some (-1) := by
  decide +kernel

/-- The endpoints of a list of intervals. -/
def lends (r : Except Err (List (Iv ℚ))) : Option (List (ℚ × ℚ)) := r.toOption.map (List.map fun X => (X.a, X.b))

/-- /repo/test/tolerable_solution_set_estimation_tests.py:7-13. -/
theorem neumaier_box : lends (neumaier ![![c 1 1, c 0 0], ![c 0 0, c 1 1]] ![c (-2) 2, c (-3) 3] ![0, 0] (some ![2, 3])) =
    some [(-2, 2), (-3, 3)] := by decide +kernel

/-- /repo/test/tolerable_solution_set_estimation_tests.py:15-22: the product `A @ x` is `[-4/3, 4]`. -/
theorem neumaier_line : lends (neumaier ![![c (-1) 3]] ![c (-2) 4] ![1] none) = some [(2 / 3, 4 / 3)] ∧
    (c (-1) 3).mul Rnd.exact (c (2 / 3) (4 / 3)) = c (-4 / 3) 4 := by decide +kernel

/-- One more pass of the loop of `Rohn` from the radii `d`, without the correction `tol`. -/
def rohnAgain {m : ℕ} (inv : (Fin m → Fin m → ℚ) → Except Err (Fin m → Fin m → ℚ)) (A : Fin m → Fin m → Iv ℚ)
    (b : Fin m → Iv ℚ) (d : ℚ) : Option (List ℚ) :=
  match pseudoInv inv fun i j => (A i j).mid Rnd.exact with
  | .error _ => none
  | .ok P =>
      let A' : Fin m → Fin m → Iv ℚ := fun i l => dotEntry (dotNI Rnd.exact (List.ofFn (P i)) (List.ofFn fun k => A k l))
      let b' : Fin m → Iv ℚ := fun i => dotEntry (dotNI Rnd.exact (List.ofFn (P i)) (List.ofFn b))
      match pseudoInv inv fun i j => (A' i j).mid Rnd.exact with
      | .error _ => none
      | .ok Q =>
          (rohnLoop (rohnG Q A') (rohng Q A' b' fun i => ∑ k, Q i k * (b' k).mid Rnd.exact) 0 1 (fun _ => d)
            none).toOption.map fun r => List.ofFn r.1

/-- /repo/doc/src/linear.rst:528-531: the radius 14. -/
theorem rohn_barth : rohnAgain inv2 barth ![c (-2) 2, c (-2) 2] 14 = some [14, 14] := by decide +kernel

/-- The inverse of a matrix of order four with equal entries on the diagonal and equal entries elsewhere. -/
def inv4 (M : Fin 4 → Fin 4 → ℚ) : Except Err (Fin 4 → Fin 4 → ℚ) :=
  let a := M 0 0
  let b := M 0 1
  .ok fun i j => (if i = j then 1 / (a - b) else 0) - b / ((a - b) * (a + 3 * b))

/-- /repo/doc/src/linear.rst:539-541: the radius 4.34783. -/
theorem rohn_shary : (sharySystem Rnd.exact 4 none (23 / 100) (35 / 100)).toOption.map
    (fun r => rohnAgain inv4 r.1 r.2 (100 / 23)) = some (some [100 / 23, 100 / 23, 100 / 23, 100 / 23]) := by
  decide +kernel

/-- The rows of the constraint of /repo/doc/src/data_fitting.rst:157-164. -/
def twoSided : Except Err (Option (Rows ℚ 2)) :=
  linearConstraint ![![1, 0], ![0, 1]] (some ![.fin 0, .fin (1 / 10)]) (some ![.fin 5, .fin 5])

/-- The factor computed for /repo/doc/src/data_fitting.rst:165 is infinite. -/
theorem twoSided_mu : twoSided.toOption.map (fun r => r.map fun rows => (findMu rows (1199999 / 100000)).toOption) =
    some (some (some .inf)) := by decide +kernel

/-- The components of an intersection. -/
def parts (r : Except Err (InterRes ℚ)) : Option (List (Option (ℚ × ℚ))) :=
  match r with
  | .ok (.array xs) => some (xs.map fun X => X.map fun X => (X.a, X.b))
  | _ => none

/-- /repo/doc/src/general.rst:106-109. -/
theorem intersection_one : parts (intersection Rnd.exact (.arr [c (-3) 0, c (-6) 5, c (-2) 6]) (.iv (c (-1) 10))) =
    some [some (-1, 0), some (-1, 5), some (-1, 6)] := by decide +kernel

/-- /repo/doc/src/general.rst:111-114 shows `[-2, -2]` three times; the present code does not convert the number. -/
theorem intersection_number : parts (intersection Rnd.exact (.arr [c (-3) 0, c (-6) 5, c (-2) 6]) (.num (-2))) =
    none := by decide +kernel

/-- /repo/doc/src/general.rst:116-119. -/
theorem intersection_all : parts (intersection Rnd.exact (.arr [c (-3) 0, c (-6) 5, c (-2) 6])
    (.arr [c 2 6, c (-8) 7, c (-6) 0])) = some [none, some (-6, 5), some (-2, 0)] := by decide +kernel

/-- /repo/doc/src/guide.rst:98-110. -/
theorem matrix_product : (Precond.iv ![![c (-1) 3, c (-2) 5], ![c (-7) (-4), c (-5) 7]]).mulMat Rnd.exact
      ![![c (-3) (-2), c 4 4], ![c (-7) 3, c (-8) 0]] =
    (![![c (-44) 18, c (-44) 28], ![c (-41) 56, c (-84) 24]] : Fin 2 → Fin 2 → Iv ℚ) := by
  decide +kernel

end Docs
end IntvalPy
