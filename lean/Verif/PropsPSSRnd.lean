import Verif.PropsPSS
import Verif.ProofsFloat

/-!
# C52: the rounding of point quotients loses solutions

`kdiv` of /repo/intvalpy/linear/PSS.py:69-92 divides floats in the ambient mode, to nearest.
-/

set_option autoImplicit false
set_option linter.unusedSectionVars false

namespace IntvalPy
open Spec

/-- `[0, 5] x1 = [1, 2]`, `x1 = [-1, 1]`, `x2 = [-1, 1]`. -/
def pqA : Fin 3 → Fin 2 → Iv ℚ :=
  ![![⟨.classical, 0, 5⟩, ⟨.classical, 0, 0⟩], ![⟨.classical, 1, 1⟩, ⟨.classical, 0, 0⟩],
    ![⟨.classical, 0, 0⟩, ⟨.classical, 1, 1⟩]]
/-- Its right-hand side. -/
def pqb : Fin 3 → Iv ℚ := ![⟨.classical, 1, 2⟩, ⟨.classical, -1, 1⟩, ⟨.classical, -1, 1⟩]
/-- The negated right-hand side. -/
def pqbn : Fin 3 → Iv ℚ := ![⟨.classical, -2, -1⟩, ⟨.classical, -1, 1⟩, ⟨.classical, -1, 1⟩]
/-- The start box, right for both systems. -/
def pqX0 : Fin 2 → Iv ℚ := fun _ => ⟨.classical, -1, 1⟩

theorem pq_start (b : Fin 3 → Iv ℚ) (h1 : b 1 = ⟨.classical, -1, 1⟩) (h2 : b 2 = ⟨.classical, -1, 1⟩) :
    StartOK pqX0 pqA b := by
  refine ⟨fun j => ⟨rfl, by norm_num [pqX0]⟩, fun j => by norm_num [pqX0], ?_⟩
  rintro x ⟨A', hA', b', hb', he⟩
  have e1 := he 1
  have e2 := he 2
  simp only [apply, Fin.sum_univ_two] at e1 e2
  have a10 := hA' 1 0
  have a11 := hA' 1 1
  have a20 := hA' 2 0
  have a21 := hA' 2 1
  have b1 := hb' 1
  have b2 := hb' 2
  rw [h1] at b1
  rw [h2] at b2
  norm_num [pqA, Iv.mem_def] at a10 a11 a20 a21 b1 b2
  have f10 : A' 1 0 = 1 := le_antisymm a10.2 a10.1
  have f11 : A' 1 1 = 0 := le_antisymm a11.2 a11.1
  have f20 : A' 2 0 = 0 := le_antisymm a20.2 a20.1
  have f21 : A' 2 1 = 1 := le_antisymm a21.2 a21.1
  rw [f10, f11] at e1
  rw [f20, f21] at e2
  intro i
  fin_cases i
  · norm_num [pqX0, Iv.mem_def]; constructor <;> linarith
  · norm_num [pqX0, Iv.mem_def]; constructor <;> linarith

theorem pq_run : pssEnds (pss (Rnd.b64 : Rnd ℚ) (pssLpEx 3 1) (startGiven pqX0) (1 / 10 ^ 12) 0 pqA pqb (some 0)) =
    some [(3602879701896397 / 2 ^ 54, 1)] := by
  decide +kernel

/-- C52 in binary64: `PSS` returns a lower bound above the component of a solution although all data are small integers,
the start box is right for the system and for the negated system, and the linear programs are solved exactly: for
`[0, 5] x1 = [1, 2]`, `x1 = [-1, 1]`, `x2 = [-1, 1]` the lower bound of `x1` is `1/5` rounded to nearest, which is more
than `1/5`, and `(1/5, 0)` is a solution. -/
theorem C52_rounding_false : ∃ X : Iv ℚ,
    pss (Rnd.b64 : Rnd ℚ) (pssLpEx 3 1) (startGiven pqX0) (1 / 10 ^ 12) 0 pqA pqb (some 0) = .ok [X] ∧
    StartOK pqX0 pqA (fun i => (pqb i).rmul Rnd.b64 1) ∧
    StartOK pqX0 pqA (fun i => ((pqb i).rmul Rnd.b64 1).rmul Rnd.b64 (-1)) ∧
    LpOK (pssLpEx 3 1) ∧ LpComplete (pssLpEx 3 1) ∧ (∀ i j, Ordinary (pqA i j)) ∧ (∀ i, Ordinary (pqb i)) ∧
    United pqA pqb ![1 / 5, 0] ∧ (1 / 5 : ℚ) < X.a := by
  have h0 := pq_run
  cases hX : pss (Rnd.b64 : Rnd ℚ) (pssLpEx 3 1) (startGiven pqX0) (1 / 10 ^ 12) 0 pqA pqb (some 0) with
  | error e => rw [hX] at h0; cases h0
  | ok L =>
    rw [hX] at h0
    match L, h0 with
    | [], h0 => simp [pssEnds] at h0
    | [X], h0 =>
      simp only [pssEnds, List.map_cons, List.map_nil, Option.some.injEq, List.cons.injEq, Prod.mk.injEq, and_true] at h0
      refine ⟨X, rfl, pq_start _ (by decide +kernel) (by decide +kernel), pq_start _ (by decide +kernel) (by decide +kernel),
        lpChoice_ok _ _, lpChoice_complete _ _, ?_, ?_, ?_, ?_⟩
      · intro i j; fin_cases i <;> fin_cases j <;> norm_num [pqA, Ordinary]
      · intro i; fin_cases i <;> norm_num [pqb, Ordinary]
      · refine ⟨![![5, 0], ![1, 0], ![0, 1]], ?_, ![1, 1 / 5, 0], ?_, ?_⟩
        · intro i j; fin_cases i <;> fin_cases j <;> norm_num [pqA, Iv.mem_def]
        · intro i; fin_cases i <;> norm_num [pqb, Iv.mem_def]
        · intro i; fin_cases i <;> norm_num [apply, Fin.sum_univ_two]
      · rw [h0.1]; norm_num
    | _ :: _ :: _, h0 => simp [pssEnds] at h0

/-- Without rounding the bound is sharp. -/
example : pssEnds (pss (Rnd.exact : Rnd ℚ) (pssLpEx 3 1) (startGiven pqX0) (1 / 10 ^ 12) 0 pqA pqb (some 0)) =
    some [(1 / 5, 1)] := by
  decide +kernel

end IntvalPy
