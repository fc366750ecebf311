import Verif.Force
import Verif.ModelNonlinear
import Verif.ProofsFloat

/-!
# The recorded runs of the global optimisation

/repo/test/optimization/intvalpy_result.txt is a record of a run of /repo/test/optimization/IntvalPy.py, which
contains a copy of `globopt` (lines 23-48 of the script; /repo/intvalpy/nonlinear/globopt.py:19-44) and applies
it to test functions.  For each of them it shows the box found, the enclosure of the values, its width with all
digits and the number of passes of the loop.

Here the model of `globopt` is run in binary64 arithmetic on test functions that need no elementary functions and
end before the bound on the passes: `dejoung`, `booth`, `rosenbrock` and `dixonprice`.  The number of passes agrees
exactly, the ends of the box and of the enclosure with all digits that were printed, and the width with all
digits for the first three.

The record was made with an earlier version of the library, without directed rounding (line 8 of the script).
Directed rounding changes nothing that was printed for the first three functions; for `dixonprice` the recorded
width `3.963815525499295e-15` is the one of arithmetic rounded to nearest, while the directed roundings of the
present version give `3.963815563916329e-15`.

The kernel evaluates lazily; `forceNat`, …, `forceSpine` below make the loop strict, and `countS_eq` shows that
this changes nothing.  Nothing is claimed about the code by these checks; they are evidence that the models
of the arithmetic and of `globopt` follow the code.
-/

set_option autoImplicit false

namespace IntvalPy
namespace RunsOpt

/-- Binary64 rounding. -/
abbrev R : Rnd ℚ := Rnd.b64

/-! ## The loop with the counter of the passes -/

variable {n : ℕ}

/-- The loop of `globopt` with the counter `nit` (which the recorded script prints). -/
def globCount (func : (Fin n → Iv ℚ) → Except Err (Iv ℚ)) (tol : ℚ) :
    ℕ → ℕ → List ((Fin n → Iv ℚ) × ℚ) → Except Err (ℕ × List ((Fin n → Iv ℚ) × ℚ))
  | 0, nit, L => .ok (nit, L)
  | fuel + 1, nit, L =>
      match L with
      | [] => .error .indexError
      | (Y, y) :: rest =>
          match func Y with
          | .error e => .error e
          | .ok F =>
              if tol ≤ F.wid R then
                match globStep R func ((Y, y) :: rest) Y with
                | .error e => .error e
                | .ok L' => globCount func tol fuel (nit + 1) L'
              else .ok (nit, (Y, y) :: rest)

/-- The counter changes nothing else. -/
theorem globCount_loop (func : (Fin n → Iv ℚ) → Except Err (Iv ℚ)) (tol : ℚ) (fuel nit : ℕ)
    (L : List ((Fin n → Iv ℚ) × ℚ)) :
    (globCount func tol fuel nit L).map Prod.snd = globLoop R func tol fuel L := by
  induction fuel generalizing nit L with
  | zero => rfl
  | succ fuel ih =>
      cases L with
      | nil => rfl
      | cons p rest =>
          obtain ⟨Y, y⟩ := p
          simp only [globCount, globLoop]
          cases func Y with
          | error e => rfl
          | ok F =>
              simp only
              by_cases h : tol ≤ F.wid R
              · rw [if_pos h, if_pos h]
                cases globStep R func ((Y, y) :: rest) Y with
                | error e => rfl
                | ok L' => exact ih _ _
              · rw [if_neg h, if_neg h]; rfl

/-- `globStep` with its results evaluated. -/
def stepS (func : (Fin n → Iv ℚ) → Except Err (Iv ℚ)) (L : List ((Fin n → Iv ℚ) × ℚ)) (Y : Fin n → Iv ℚ) :
    Except Err (List ((Fin n → Iv ℚ) × ℚ)) :=
  match argmaxOn (fun i => (Y i).wid R) (List.finRange n) with
  | none => .error .valueError
  | some l =>
      match L with
      | [] => .error .indexError
      | (Y0, _) :: rest =>
          forceBox n (Function.update Y0 l (mkIv (Y l).a ((Y l).mid R))) fun Y1 =>
          forceBox n (Function.update Y0 l (mkIv ((Y l).mid R) (Y l).b)) fun Y2 =>
          match func Y1 with
          | .error e => .error e
          | .ok F1 =>
              match func Y2 with
              | .error e => .error e
              | .ok F2 => forceQ F1.a fun v1 => forceQ F2.a fun v2 =>
                forceSpine (globInsert rest (Y1, v1)) fun L1 => forceSpine (globInsert L1 (Y2, v2)) .ok

theorem stepS_eq (func : (Fin n → Iv ℚ) → Except Err (Iv ℚ)) (L : List ((Fin n → Iv ℚ) × ℚ)) (Y : Fin n → Iv ℚ) :
    stepS func L Y = globStep R func L Y := by
  simp only [stepS, globStep, forceBox_eq, forceQ_eq, forceSpine_eq]
  cases argmaxOn (fun i => (Y i).wid R) (List.finRange n) with
  | none => rfl
  | some l =>
      cases L with
      | nil => rfl
      | cons p rest =>
          simp only
          cases func (Function.update p.1 l (mkIv (Y l).a ((Y l).mid R))) with
          | error e => rfl
          | ok F1 =>
              simp only
              cases func (Function.update p.1 l (mkIv ((Y l).mid R) (Y l).b)) with
              | error e => rfl
              | ok F2 => rfl

/-- `globCount` with strict steps. -/
def countS (func : (Fin n → Iv ℚ) → Except Err (Iv ℚ)) (tol : ℚ) :
    ℕ → ℕ → List ((Fin n → Iv ℚ) × ℚ) → Except Err (ℕ × List ((Fin n → Iv ℚ) × ℚ))
  | 0, nit, L => .ok (nit, L)
  | fuel + 1, nit, L =>
      match L with
      | [] => .error .indexError
      | (Y, y) :: rest =>
          match func Y with
          | .error e => .error e
          | .ok F =>
              if tol ≤ F.wid R then
                match stepS func ((Y, y) :: rest) Y with
                | .error e => .error e
                | .ok L' => forceNat (nit + 1) fun m => countS func tol fuel m L'
              else .ok (nit, (Y, y) :: rest)

theorem countS_eq (func : (Fin n → Iv ℚ) → Except Err (Iv ℚ)) (tol : ℚ) (fuel nit : ℕ)
    (L : List ((Fin n → Iv ℚ) × ℚ)) : countS func tol fuel nit L = globCount func tol fuel nit L := by
  induction fuel generalizing nit L with
  | zero => rfl
  | succ fuel ih =>
      cases L with
      | nil => rfl
      | cons p rest => simp only [countS, globCount, stepS_eq, forceNat_eq, ih]

/-! ## What was recorded -/

/-- The numbers of one recorded run. -/
structure Record where
  /-- `nit` -/
  nit : ℕ
  /-- `func(x).wid` in units of `10^-30` (printed with all digits) -/
  width : ℤ
  /-- the printed ends of the box -/
  box : List (ℚ × ℚ)
  /-- the printed upper end of `func(x)`; the lower end was printed as zero -/
  top : ℚ

/-- `p` printed with six significant digits may stand for `x`. -/
def six (p x : ℚ) : Bool := decide (|x - p| * 200000 ≤ |p|)

/-- `tol=1e-14` of the script, /repo/test/optimization/IntvalPy.py:178. -/
def tol : ℚ := R.nr (1 / 10 ^ 14)

/-- The run `globopt(func, x0, tol=1e-14, maxiter=10000)` ends as recorded. -/
def Agrees (func : (Fin n → Iv ℚ) → Except Err (Iv ℚ)) (x0 : Fin n → Iv ℚ) (r : Record) : Prop :=
  ∃ F L Y y v, func x0 = .ok F ∧ globCount func tol 10001 0 [(x0, F.a)] = .ok (r.nit, (Y, y) :: L) ∧
    globopt R func x0 tol 10000 = .ok (Y, v) ∧ v.wid R = R.nr (r.width / 10 ^ 30) ∧ v.a = 0 ∧ six r.top v.b = true ∧
    List.Forall₂ (fun p X => six p.1 X.a = true ∧ six p.2 X.b = true) r.box (List.ofFn Y)

/-- The same, computed. -/
def agreesS (func : (Fin n → Iv ℚ) → Except Err (Iv ℚ)) (x0 : Fin n → Iv ℚ) (r : Record) : Bool :=
  forceBox n x0 fun x0 =>
  match func x0 with
  | .error _ => false
  | .ok F => forceQ F.a fun y0 =>
    match countS func tol 10001 0 [(x0, y0)] with
    | .ok (nit, (Y, _) :: _) =>
        match func Y with
        | .error _ => false
        | .ok v => nit == r.nit && decide (v.wid R = R.nr (r.width / 10 ^ 30)) && decide (v.a = 0) && six r.top v.b &&
            decide (List.Forall₂ (fun p X => six p.1 X.a = true ∧ six p.2 X.b = true) r.box (List.ofFn Y))
    | _ => false

theorem agrees_of (func funcS : (Fin n → Iv ℚ) → Except Err (Iv ℚ)) (hS : ∀ x, funcS x = func x)
    (x0 : Fin n → Iv ℚ) (r : Record) (h : agreesS funcS x0 r = true) : Agrees func x0 r := by
  obtain rfl : funcS = func := funext hS
  rename' funcS => func
  simp only [agreesS, forceBox_eq, forceQ_eq, countS_eq] at h
  cases hF : func x0 with
  | error e => simp [hF] at h
  | ok F =>
      simp only [hF] at h
      have hl := globCount_loop func tol 10001 0 [(x0, F.a)]
      cases hc : globCount func tol 10001 0 [(x0, F.a)] with
      | error e => simp [hc] at h
      | ok q =>
          obtain ⟨nit, L⟩ := q
          cases L with
          | nil => simp [hc] at h
          | cons p L =>
              obtain ⟨Y, y⟩ := p
              simp only [hc] at h
              rw [hc] at hl
              cases hv : func Y with
              | error e => simp [hv] at h
              | ok v =>
                  simp only [hv, Bool.and_eq_true, beq_iff_eq, decide_eq_true_eq] at h
                  obtain ⟨⟨⟨⟨h1, h2⟩, h4⟩, h5⟩, h3⟩ := h
                  subst h1
                  refine ⟨F, L, Y, y, v, hF, hc, ?_, h2, h4, h5, h3⟩
                  have e : ((10000 : ℤ) + 1).toNat = 10001 := rfl
                  simp only [globopt, hF, e, ← hl, Except.map, hv]

/-! ## The test functions -/

/-- `X ** 2`. -/
def sqr (X : Iv ℚ) : Iv ℚ := X.powNat R 2

/-- /repo/test/optimization/IntvalPy.py:102-103. -/
def dejoung (x : Fin 3 → Iv ℚ) : Except Err (Iv ℚ) := .ok (((sqr (x 0)).add R (sqr (x 1))).add R (sqr (x 2)))

/-- /repo/test/optimization/IntvalPy.py:93-94. -/
def booth (x : Fin 2 → Iv ℚ) : Except Err (Iv ℚ) :=
  .ok ((sqr ((((x 0).add R (Iv.rmul R 2 (x 1)))).subNum R 7)).add R
    (sqr (((Iv.rmul R 2 (x 0)).add R (x 1)).subNum R 5)))

/-- /repo/test/optimization/IntvalPy.py:65-66, for two variables; `sum` starts from zero. -/
def rosenbrock (x : Fin 2 → Iv ℚ) : Except Err (Iv ℚ) :=
  .ok (Iv.radd R 0 ((Iv.rmul R 100 (sqr ((x 1).sub R (sqr (x 0))))).add R (sqr (Iv.rsub R 1 (x 0)))))

/-- /repo/test/optimization/IntvalPy.py:69-70, for two variables. -/
def dixonprice (x : Fin 2 → Iv ℚ) : Except Err (Iv ℚ) :=
  .ok ((sqr ((x 0).subNum R 1)).add R
    (Iv.radd R 0 (Iv.rmul R 2 (sqr ((Iv.rmul R 2 (sqr (x 1))).sub R (x 0))))))

/-- `dejoung`, evaluated step by step. -/
def dejoungS (x : Fin 3 → Iv ℚ) : Except Err (Iv ℚ) :=
  forceIv (sqr (x 0)) fun p =>
  forceIv (sqr (x 1)) fun q =>
  forceIv (sqr (x 2)) fun t =>
  forceIv (p.add R q) fun p =>
  forceIv (p.add R t) fun r =>
  .ok r

theorem dejoungS_eq (x : Fin 3 → Iv ℚ) : dejoungS x = dejoung x := by
  simp only [dejoungS, dejoung, forceIv_eq]

/-- `dixonprice`, evaluated step by step. -/
def dixonpriceS (x : Fin 2 → Iv ℚ) : Except Err (Iv ℚ) :=
  forceIv ((x 0).subNum R 1) fun p =>
  forceIv (sqr p) fun p =>
  forceIv (sqr (x 1)) fun q =>
  forceIv (Iv.rmul R 2 q) fun q =>
  forceIv (q.sub R (x 0)) fun q =>
  forceIv (sqr q) fun q =>
  forceIv (Iv.rmul R 2 q) fun q =>
  forceIv (Iv.radd R 0 q) fun q =>
  forceIv (p.add R q) fun r =>
  .ok r

theorem dixonpriceS_eq (x : Fin 2 → Iv ℚ) : dixonpriceS x = dixonprice x := by
  simp only [dixonpriceS, dixonprice, forceIv_eq]

/-- `rosenbrock`, evaluated step by step. -/
def rosenbrockS (x : Fin 2 → Iv ℚ) : Except Err (Iv ℚ) :=
  forceIv (sqr (x 0)) fun p =>
  forceIv ((x 1).sub R p) fun p =>
  forceIv (sqr p) fun p =>
  forceIv (Iv.rmul R 100 p) fun p =>
  forceIv (Iv.rsub R 1 (x 0)) fun q =>
  forceIv (sqr q) fun q =>
  forceIv (p.add R q) fun p =>
  forceIv (Iv.radd R 0 p) fun r =>
  .ok r

theorem rosenbrockS_eq (x : Fin 2 → Iv ℚ) : rosenbrockS x = rosenbrock x := by
  simp only [rosenbrockS, rosenbrock, forceIv_eq]

/-- `booth`, evaluated step by step. -/
def boothS (x : Fin 2 → Iv ℚ) : Except Err (Iv ℚ) :=
  forceIv (Iv.rmul R 2 (x 1)) fun p =>
  forceIv ((x 0).add R p) fun p =>
  forceIv (p.subNum R 7) fun p =>
  forceIv (sqr p) fun p =>
  forceIv (Iv.rmul R 2 (x 0)) fun q =>
  forceIv (q.add R (x 1)) fun q =>
  forceIv (q.subNum R 5) fun q =>
  forceIv (sqr q) fun q =>
  forceIv (p.add R q) fun r =>
  .ok r

theorem boothS_eq (x : Fin 2 → Iv ℚ) : boothS x = booth x := by
  simp only [boothS, booth, forceIv_eq]

/-- Recorded: 80 passes, width `8.731149137020112e-15`. -/
theorem dejoung_run : Agrees dejoung (fun _ => ⟨.classical, R.nr (-256 / 100), R.nr (512 / 100)⟩)
    ⟨80, 8731149137020112, [(-38147 / 10 ^ 12, 190735 / 10 ^ 13), (-38147 / 10 ^ 12, 190735 / 10 ^ 13),
      (-38147 / 10 ^ 12, 762939 / 10 ^ 13)], 873115 / 10 ^ 20⟩ := agrees_of _ _ dejoungS_eq _ _ (by decide +kernel)

/-- Recorded: 60 passes, upper end `3.96382e-15`; the width is the one of directed rounding, see above. -/
theorem dixonprice_run : Agrees dixonprice (fun _ => ⟨.classical, -10, 10⟩)
    ⟨60, 3963815563916329, [(1, 1), (707107 / 10 ^ 6, 707107 / 10 ^ 6)], 396382 / 10 ^ 20⟩ :=
  agrees_of _ _ dixonpriceS_eq _ _ (by decide +kernel)

/-- Recorded: 114 passes, width `7.030021096504635e-15`. -/
theorem rosenbrock_run : Agrees rosenbrock (fun _ => ⟨.classical, -5, 10⟩)
    ⟨114, 7030021096504635, [(1, 1), (1, 1)], 703002 / 10 ^ 20⟩ := agrees_of _ _ rosenbrockS_eq _ _ (by decide +kernel)

/-- Recorded: 146 passes, width `7.896461262646426e-15`. -/
theorem booth_run : Agrees booth (fun _ => ⟨.classical, -10, 10⟩)
    ⟨146, 7896461262646426, [(1, 1), (3, 3)], 789646 / 10 ^ 20⟩ := agrees_of _ _ boothS_eq _ _ (by decide +kernel)

end RunsOpt
end IntvalPy
