import Verif.ModelSubdiffViews
import Verif.PropsSubdiffConv
import Verif.PropsViews

/-!
# C157: `Subdiff` and the number type of the right-hand side

`Subdiff` reads the right-hand side twice: through the endpoint views for the start, element by element in the loop.
The views truncate when the first endpoint is an integer and a later one is not (C63).
-/

set_option autoImplicit false
set_option linter.unusedSectionVars false

namespace IntvalPy
open Spec

/-- C157, full statement: what `Subdiff` returns depends on the values of the endpoints of `b`, not on whether they are
stored as integers or floats. -/
def C157_statement : Prop :=
  ∀ (n : ℕ) (solve : Solver ℚ n), SolveOK solve → ∀ (A : Fin n → Fin n → FIv) (b b' : Fin n → FIv),
    (∀ i, (b i).cls = (b' i).cls ∧ (b i).a.val = (b' i).a.val ∧ (b i).b.val = (b' i).b.val) →
    ∀ tol maxiter tau normMin,
      subdiffObj solve A b tol maxiter tau normMin = subdiffObj solve A b' tol maxiter tau normMin

/-- With right views `Subdiff` on objects is `Subdiff` on the stored endpoints. -/
theorem subdiffObj_right {n : ℕ} (solve : Solver ℚ n) (A : Fin n → Fin n → FIv) (b : Fin n → FIv)
    (hv : ViewsRight (List.ofFn b)) (tol : ℚ) (maxiter : ℤ) (tau normMin : ℚ) :
    subdiffObj solve A b tol maxiter tau normMin =
      subdiff Rnd.exact solve (fun i j => ivRat (A i j)) (fun i => ivRat (b i)) tol maxiter tau normMin := by
  unfold subdiffObj subdiff
  rw [viewFin_right hv, dif_pos rfl, dif_pos rfl]
  change _ = subdiffSq Rnd.exact solve (fun i j => ivRat (A i j)) (fun i => ivRat (b i)) tol maxiter tau normMin
  unfold subdiffSq
  dsimp only
  have e : (Sum.elim (fun i => (endsIv (b i)).a) (fun i => (endsIv (b i)).b) : Dbl2 n → ℚ) =
      Sum.elim (fun i => (ivRat (b i)).a) (fun i => (ivRat (b i)).b) := rfl
  rw [e]
  cases solve (superMatrix Rnd.exact fun i j => ivRat (A i j))
    (Sum.elim (fun i => (ivRat (b i)).a) (fun i => (ivRat (b i)).b)) <;> rfl

/-- C157, partial: two right-hand sides with the same values give the same result when the views of both are right.
Missing: mixed right-hand sides starting with an integer (false). -/
theorem C157_right_views_partial {n : ℕ} (solve : Solver ℚ n) (A : Fin n → Fin n → FIv) (b b' : Fin n → FIv)
    (hv : ViewsRight (List.ofFn b)) (hv' : ViewsRight (List.ofFn b'))
    (hbb : ∀ i, (b i).cls = (b' i).cls ∧ (b i).a.val = (b' i).a.val ∧ (b i).b.val = (b' i).b.val)
    (tol : ℚ) (maxiter : ℤ) (tau normMin : ℚ) :
    subdiffObj solve A b tol maxiter tau normMin = subdiffObj solve A b' tol maxiter tau normMin := by
  rw [subdiffObj_right solve A b hv, subdiffObj_right solve A b' hv']
  have e : (fun i => ivRat (b i)) = fun i => ivRat (b' i) := by
    funext i
    obtain ⟨h1, h2, h3⟩ := hbb i
    simp only [ivRat, h1, numRat_val h2, numRat_val h3]
  rw [e]

/-- A loop of at least one pass ends with a Newton step. -/
theorem subdiffLoop_last {K : Type*} [Field K] [LinearOrder K] {n : ℕ} (R : Rnd K) (solve : Solver K n)
    (A : Fin n → Fin n → Iv K) (b : Fin n → Iv K) (tol tau normMin : K) (fuel : ℕ) : ∀ x xx : Dbl2 n → K,
    subdiffLoop R solve A b tol tau normMin (fuel + 1) x = .ok xx → ∃ y, newtonStep R solve A b tau y = .ok xx := by
  induction fuel with
  | zero =>
    intro x xx h
    rw [subdiffLoop] at h
    cases hs : newtonStep R solve A b tau x with
    | error e => rw [hs] at h; cases h
    | ok y =>
      rw [hs] at h
      dsimp only at h
      split_ifs at h
      · rw [subdiffLoop] at h
        injection h with h; exact ⟨x, h ▸ hs⟩
      · injection h with h; exact ⟨x, h ▸ hs⟩
  | succ fuel ih =>
    intro x xx h
    rw [subdiffLoop] at h
    cases hs : newtonStep R solve A b tau x with
    | error e => rw [hs] at h; cases h
    | ok y =>
      rw [hs] at h
      dsimp only at h
      split_ifs at h
      · exact ih y xx h
      · injection h with h; exact ⟨x, h ▸ hs⟩

/-- Whatever is returned after at least one pass is the end of a Newton step for the stored right-hand side, whatever
the views say. -/
theorem subdiffObj_last {n : ℕ} (solve : Solver ℚ n) (A : Fin n → Fin n → FIv) (b : Fin n → FIv)
    (tol : ℚ) (maxiter : ℤ) (hmax : 0 ≤ maxiter) (tau normMin : ℚ) (X : Fin n → Iv ℚ)
    (h : subdiffObj solve A b tol maxiter tau normMin = .ok X) :
    ∃ x xx, newtonStep Rnd.exact solve (fun i j => ivRat (A i j)) (fun i => ivRat (b i)) tau x = .ok xx ∧
      X = fun j => ivAt xx j := by
  unfold subdiffObj at h
  cases hv : viewFin b with
  | error e => rw [hv] at h; cases h
  | ok v =>
    rw [hv] at h
    dsimp only at h
    cases h0 : solve (superMatrix Rnd.exact fun i j => ivRat (A i j)) (Sum.elim (fun i => (v i).a) (fun i => (v i).b)) with
    | error e => rw [h0] at h; cases h
    | ok x0 =>
      rw [h0] at h
      dsimp only at h
      obtain ⟨f, hf⟩ : ∃ f, (maxiter + 1).toNat = f + 1 := ⟨maxiter.toNat, by omega⟩
      rw [hf] at h
      cases hl : subdiffLoop Rnd.exact solve (fun i j => ivRat (A i j)) (fun i => ivRat (b i)) tol tau normMin (f + 1) x0 with
      | error e => rw [hl] at h; cases h
      | ok xx =>
        rw [hl] at h
        injection h with h
        obtain ⟨y, hy⟩ := subdiffLoop_last _ solve _ _ tol tau normMin f x0 xx hl
        exact ⟨y, xx, hy, h.symm⟩

/-- C157, what wrong views cannot spoil: with full steps, at least one pass and a matrix of proper entries the result
satisfies `b ⊆ A X` for the stored right-hand side, whatever the views say. -/
theorem C157_side_any_views {n : ℕ} (solve : Solver ℚ n) (hs : SolveOK solve) (A : Fin n → Fin n → FIv) (b : Fin n → FIv)
    (hA : ∀ i j, (ivRat (A i j)).a ≤ (ivRat (A i j)).b) (tol : ℚ) (maxiter : ℤ) (hmax : 0 ≤ maxiter) (normMin : ℚ)
    (X : Fin n → Iv ℚ) (h : subdiffObj solve A b tol maxiter 1 normMin = .ok X) :
    RightInside (fun i j => ivRat (A i j)) X fun i => ivRat (b i) := by
  obtain ⟨x, xx, hstep, rfl⟩ := subdiffObj_last solve A b tol maxiter hmax 1 normMin X h
  intro i
  obtain ⟨h1, h2⟩ := C143_step solve hs _ hA _ 1 x xx hstep i
  obtain ⟨r1, r2⟩ := resVec_ends (fun i j => ivRat (A i j)) (fun i j _ => hA i j) (fun i => ivRat (b i)) xx i
  rw [r1, sub_self, zero_mul] at h1
  rw [r2, sub_self, zero_mul] at h2
  refine ⟨fun j => kLo (ivRat (A i j)) (ivAt xx j), fun j => kHi (ivRat (A i j)) (ivAt xx j),
    fun j => isKaucherProduct_kForm _ _, ?_, ?_⟩ <;> linarith

/-- C157, what wrong views cannot spoil: with full steps and at least one pass a point matrix gives the exact formal
solution of the stored system. -/
theorem C157_point_any_views {n : ℕ} (solve : Solver ℚ n) (hs : SolveOK solve) (A : Fin n → Fin n → FIv) (b : Fin n → FIv)
    (hp : ∀ i j, (ivRat (A i j)).a = (ivRat (A i j)).b) (tol : ℚ) (maxiter : ℤ) (hmax : 0 ≤ maxiter) (normMin : ℚ)
    (X : Fin n → Iv ℚ) (h : subdiffObj solve A b tol maxiter 1 normMin = .ok X) :
    FormalSolution (fun i j => ivRat (A i j)) X fun i => ivRat (b i) := by
  obtain ⟨x, xx, hstep, rfl⟩ := subdiffObj_last solve A b tol maxiter hmax 1 normMin X h
  set P : Fin n → Fin n → Iv ℚ := fun i j => ivRat (A i j) with hP
  have hA : ∀ i j, WF (P i j) := fun i j _ => (hp i j).le
  exact C47_same_branch solve hs P hA (fun i => ivRat (b i)) x xx (fun i j => not_bad (Or.inl (hp i j).le) _)
    (fun i j => not_bad (Or.inl (hp i j).le) _) hstep
    ((point_superMatrix P hp xx).symm.trans (point_superMatrix P hp x))

/-! ## The property is false of the code -/

/-- The matrix `[[-2, 0], [1, 1]; [-3, -1], [1, 4]]`, -/
def svA : Fin 2 → Fin 2 → FIv :=
  ![![⟨.classical, .int (-2), .int 0⟩, ⟨.classical, .int 1, .int 1⟩],
    ![⟨.classical, .int (-3), .int (-1)⟩, ⟨.classical, .int 1, .int 4⟩]]
/-- the right-hand side `([1, 1], [2.5, 3.5])` with integers in the first interval, -/
def svB : Fin 2 → FIv := ![⟨.classical, .int 1, .int 1⟩, ⟨.classical, .dbl (.fin (5/2)), .dbl (.fin (7/2))⟩]
/-- and the same with floats only. -/
def svB' : Fin 2 → FIv :=
  ![⟨.classical, .dbl (.fin 1), .dbl (.fin 1)⟩, ⟨.classical, .dbl (.fin (5/2)), .dbl (.fin (7/2))⟩]
def svG : Dbl2 2 → Dbl2 2 → ℚ :=
  sdM ![![![![0, 0], ![-5, 2]], ![![-4, 2], ![0, 0]]], ![![![-5, 2], ![0, 0]], ![![0, 0], ![-4, 2]]]]
def svG0 : Dbl2 2 → Dbl2 2 → ℚ :=
  sdM ![![![![0, 0], ![4, -1]], ![![1, 0], ![0, 0]]], ![![![4, -1], ![0, 0]], ![![0, 0], ![1, 0]]]]
def svG1 : Dbl2 2 → Dbl2 2 → ℚ :=
  sdM ![![![![0, 0], ![4, -1]], ![![3, -2], ![0, 0]]], ![![![1, -1], ![0, 0]], ![![0, 0], ![1, 0]]]]
def svGf : Dbl2 2 → Dbl2 2 → ℚ :=
  sdM ![![![![0, 0], ![4, -1]], ![![1, 0], ![0, 0]]], ![![![1, -1], ![0, 0]], ![![0, 0], ![1, 0]]]]
def svX0 : Dbl2 2 → ℚ := sdV ![![1, 0], ![-1, 2]]
def svX1 : Dbl2 2 → ℚ := sdV ![![1/2, 1], ![3/2, 1]]
def svX2 : Dbl2 2 → ℚ := sdV ![![1/2, -2], ![-3/2, 1]]
def svY0 : Dbl2 2 → ℚ := sdV ![![2, 1], ![0, 3]]
def svY1 : Dbl2 2 → ℚ := sdV ![![1/2, 1], ![-3/2, 1]]
def svAq : Fin 2 → Fin 2 → Iv ℚ := fun i j => ivRat (svA i j)
def svBq : Fin 2 → Iv ℚ := fun i => ivRat (svB i)

/-- The right-hand side is read as `([1, 1], [2, 3])`. -/
theorem svB_view : viewFin svB = .ok ![⟨.classical, 1, 1⟩, ⟨.classical, 2, 3⟩] := by
  have h1 : arrA (List.ofFn svB) = .ok [.int 1, .int 2] := by decide +kernel
  have h2 : arrB (List.ofFn svB) = .ok [.int 1, .int 3] := by decide +kernel
  rw [viewFin, h1, h2]
  dsimp only
  congr 1
  funext i
  fin_cases i <;> simp [numRat]

theorem svB'_view : viewFin svB' = .ok ![⟨.classical, 1, 1⟩, ⟨.classical, 5/2, 7/2⟩] := by
  have h1 : arrA (List.ofFn svB') = .ok [.dbl (.fin 1), .dbl (.fin (5/2))] := by decide +kernel
  have h2 : arrB (List.ofFn svB') = .ok [.dbl (.fin 1), .dbl (.fin (7/2))] := by decide +kernel
  rw [viewFin, h1, h2]
  dsimp only
  congr 1
  funext i
  fin_cases i <;> simp [numRat]

/-- With integers first the default call alternates between two vectors and returns `([1/2, 3/2], [1, 1])`. -/
theorem sv_run (solve : Solver ℚ 2) (hs : SolveOK solve) :
    subdiffObj solve svA svB (1 / 10 ^ 12) 500 1 (1 / 10 ^ 12) = .ok ![⟨.classical, 1/2, 3/2⟩, ⟨.classical, 1, 1⟩] := by
  have s0 : newtonStep Rnd.exact solve svAq svBq 1 svX0 = .ok svX1 :=
    newtonStep_of_inverse _ solve hs _ _ _ _ svG0 (by decide +kernel) (by decide +kernel)
  have s1 : newtonStep Rnd.exact solve svAq svBq 1 svX1 = .ok svX2 :=
    newtonStep_of_inverse _ solve hs _ _ _ _ svG1 (by decide +kernel) (by decide +kernel)
  have s2 : newtonStep Rnd.exact solve svAq svBq 1 svX2 = .ok svX1 :=
    newtonStep_of_inverse _ solve hs _ _ _ _ svG0 (by decide +kernel) (by decide +kernel)
  have hloop : ∀ k, subdiffLoop Rnd.exact solve svAq svBq (1 / 10 ^ 12) 1 (1 / 10 ^ 12) (2 * k) svX1 = .ok svX1 := by
    intro k
    induction k with
    | zero => rfl
    | succ k ih =>
      rw [show 2 * (k + 1) = 2 * k + 1 + 1 by ring, subdiffLoop, s1]
      dsimp only
      rw [if_pos (by decide +kernel), subdiffLoop, s2]
      dsimp only
      rw [if_pos (by decide +kernel), ih]
  unfold subdiffObj
  rw [svB_view]
  dsimp only
  rw [solve_of_inverse solve hs _ svG _ svX0 (by decide +kernel) (by decide +kernel)]
  dsimp only
  change (subdiffLoop Rnd.exact solve svAq svBq (1 / 10 ^ 12) 1 (1 / 10 ^ 12) ((500 : ℤ) + 1).toNat svX0).map _ = _
  rw [show ((500 : ℤ) + 1).toNat = (2 * 250) + 1 by decide, subdiffLoop, s0]
  dsimp only
  rw [if_pos (by decide +kernel), hloop 250]
  refine congrArg Except.ok (funext fun j => ?_)
  fin_cases j <;> decide +kernel

/-- With floats only it returns the formal solution `([1/2, -3/2], [1, 1])` after two passes. -/
theorem sv_run_floats (solve : Solver ℚ 2) (hs : SolveOK solve) :
    subdiffObj solve svA svB' (1 / 10 ^ 12) 500 1 (1 / 10 ^ 12) = .ok ![⟨.kaucher, 1/2, -3/2⟩, ⟨.classical, 1, 1⟩] := by
  have eb : (fun i => ivRat (svB' i)) = svBq := by
    funext i
    fin_cases i <;> decide +kernel
  have s0 : newtonStep Rnd.exact solve svAq svBq 1 svY0 = .ok svY1 :=
    newtonStep_of_inverse _ solve hs _ _ _ _ svGf (by decide +kernel) (by decide +kernel)
  have s1 : newtonStep Rnd.exact solve svAq svBq 1 svY1 = .ok svY1 :=
    newtonStep_of_inverse _ solve hs _ _ _ _ svGf (by decide +kernel) (by decide +kernel)
  unfold subdiffObj
  rw [svB'_view]
  dsimp only
  rw [solve_of_inverse solve hs _ svG _ svY0 (by decide +kernel) (by decide +kernel), eb]
  dsimp only
  change (subdiffLoop Rnd.exact solve svAq svBq (1 / 10 ^ 12) 1 (1 / 10 ^ 12) ((500 : ℤ) + 1).toNat svY0).map _ = _
  rw [show ((500 : ℤ) + 1).toNat = 499 + 1 + 1 by decide, subdiffLoop, s0]
  dsimp only
  rw [if_pos (by decide +kernel), subdiffLoop, s1]
  dsimp only
  rw [if_neg (by decide +kernel)]
  refine congrArg Except.ok (funext fun j => ?_)
  fin_cases j <;> decide +kernel

/-- C157 is false: with the default parameters `([1, 1], [2.5, 3.5])` gives the formal solution when all endpoints are
floats, and a vector that is none when the first interval has integer endpoints. -/
theorem C157_false : ¬ C157_statement ∧
    (∀ solve : Solver ℚ 2, SolveOK solve → ∃ X X', subdiffObj solve svA svB (1 / 10 ^ 12) 500 1 (1 / 10 ^ 12) = .ok X ∧
      subdiffObj solve svA svB' (1 / 10 ^ 12) 500 1 (1 / 10 ^ 12) = .ok X' ∧
      ¬ FormalSolution svAq X svBq ∧ FormalSolution svAq X' svBq) := by
  refine ⟨fun h => ?_, fun solve hs => ⟨_, _, sv_run solve hs, sv_run_floats solve hs, ?_, ?_⟩⟩
  · have := h 2 (exactSolver 2) (exactSolver_ok 2) svA svB svB' (by
      intro i
      fin_cases i
      · exact ⟨rfl, by decide +kernel, by decide +kernel⟩
      · exact ⟨rfl, rfl, rfl⟩) (1 / 10 ^ 12) 500 1 (1 / 10 ^ 12)
    rw [sv_run _ (exactSolver_ok 2), sv_run_floats _ (exactSolver_ok 2)] at this
    injection this with this
    have := congrArg (fun X : Fin 2 → Iv ℚ => (X 0).cls) this
    simp at this
  · rw [formalSolution_iff]
    intro hf
    exact absurd (hf 0).1 (by decide +kernel)
  · rw [formalSolution_iff]
    intro i
    fin_cases i <;> decide +kernel

/-- The hypotheses of `C157_side_any_views` hold for the run with the truncated views: `([1, 1], [2.5, 3.5]) ⊆ A X`. -/
example (solve : Solver ℚ 2) (hs : SolveOK solve) :
    RightInside svAq ![⟨.classical, 1/2, 3/2⟩, ⟨.classical, 1, 1⟩] svBq :=
  C157_side_any_views solve hs svA svB (by decide +kernel) _ 500 (by norm_num) _ _ (sv_run solve hs)

/-- The identity matrix and the right-hand side read wrongly: one pass gives the right answer, the start alone (no pass)
does not. -/
example (solve : Solver ℚ 2) (hs : SolveOK solve) :
    subdiffObj solve (fun i j => if i = j then ⟨.classical, .int 1, .int 1⟩ else ⟨.classical, .int 0, .int 0⟩) svB 0 0 1 0 =
      .ok ![⟨.classical, 1, 1⟩, ⟨.classical, 5/2, 7/2⟩] ∧
    subdiffObj solve (fun i j => if i = j then ⟨.classical, .int 1, .int 1⟩ else ⟨.classical, .int 0, .int 0⟩) svB 0 (-1) 1 0 =
      .ok ![⟨.classical, 1, 1⟩, ⟨.classical, 2, 3⟩] := by
  have s0 : newtonStep Rnd.exact solve
      (fun i j : Fin 2 => ivRat (if i = j then ⟨.classical, .int 1, .int 1⟩ else ⟨.classical, .int 0, .int 0⟩))
      (fun i => ivRat (svB i)) 1 (sdV ![![1, 2], ![1, 3]]) = .ok (sdV ![![1, 5/2], ![1, 7/2]]) :=
    newtonStep_of_inverse _ solve hs _ _ _ _ (fun p q => if p = q then 1 else 0) (by decide +kernel) (by decide +kernel)
  unfold subdiffObj
  rw [svB_view]
  dsimp only
  rw [solve_of_inverse solve hs _ (fun p q => if p = q then 1 else 0) _ (sdV ![![1, 2], ![1, 3]]) (by decide +kernel)
    (by decide +kernel)]
  dsimp only
  constructor
  · rw [show ((0 : ℤ) + 1).toNat = 0 + 1 by decide, subdiffLoop, s0]
    dsimp only
    rw [if_pos (by decide +kernel), subdiffLoop]
    refine congrArg Except.ok (funext fun j => ?_)
    fin_cases j <;> decide +kernel
  · rw [show ((-1 : ℤ) + 1).toNat = 0 by decide, subdiffLoop]
    refine congrArg Except.ok (funext fun j => ?_)
    fin_cases j <;> decide +kernel

end IntvalPy
