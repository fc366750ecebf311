import Verif.PropsPSS
import Verif.PropsRohn

/-!
# C52: the start estimates of `PSS` without `x0`
-/

set_option autoImplicit false
set_option linter.unusedSectionVars false

namespace IntvalPy
open Spec

variable {K : Type*} [Field K] [LinearOrder K] [IsStrictOrderedRing K]

/-- The start estimate of a system with more rows than columns is right when `Rohn` converges (its last change is below
`1e-12`) to bounds within `±1e15`, and, when `Rohn` raises, when all solutions lie within `±1e14`. -/
theorem startRohn_ok {n m : ℕ} (hn : 0 < n) (inv : (Fin m → Fin m → K) → Except Err (Fin m → Fin m → K))
    (A : Fin n → Fin m → Iv K) (b : Fin n → Iv K) (hA : ∀ i j, Ordinary (A i j)) (hb : ∀ i, Ordinary (b i))
    (h1 : ∀ V e, rohnUni inv A b (1 / 10 ^ 12) 2000 = .ok (V, e) →
      (∃ err, e = some err ∧ err < 1 / 10 ^ 12) ∧ ∀ j, -10 ^ 15 ≤ (V j).a ∧ (V j).b ≤ 10 ^ 15)
    (h2 : ∀ e, rohnUni inv A b (1 / 10 ^ 12) 2000 = .error e → ∀ x, United A b x → ∀ j, |x j| ≤ 10 ^ 14) :
    StartOK (startRohn inv A b) A b := by
  unfold startRohn
  cases h : rohnUni inv A b (1 / 10 ^ 12) 2000 with
  | error e =>
    dsimp only
    refine ⟨fun j => ⟨rfl, ?_⟩, fun j => ⟨?_, ?_⟩, fun x hx j => ?_⟩
    · simp only [pssWide]; linarith [pow_pos (show (0 : K) < 10 by norm_num) 14]
    · simp only [pssWide]; norm_num
    · simp only [pssWide]; norm_num
    · have := abs_le.mp (h2 e h x hx j)
      rw [Iv.mem_def]
      simp only [pssWide]
      exact this
  | ok V =>
    obtain ⟨V, e⟩ := V
    dsimp only
    obtain ⟨⟨err, rfl, he⟩, hV⟩ := h1 V e h
    exact ⟨C42_ordinary inv A b _ _ V _ h, hV, fun x hx =>
      C42_rohn_uni hn inv A b _ (by positivity) 2000 hA hb V err h he x hx⟩

/-- C52 for more rows than columns and no `x0` (the start is `Rohn`, line 139): the bounds enclose the components of every
solution, for every number of passes and tolerance, when `Rohn` converges for both right-hand sides, and where it raises
when the solutions lie within `±1e14`. -/
theorem C52_overdetermined_partial {R : Rnd K} (hnr : ∀ x, R.nr x = x) {n m : ℕ} (hn : 0 < n)
    (lp : LpSolver K (PssRow n m) (Fin (m + 1))) (hlp : LpOK lp) (hc : LpComplete lp)
    (inv : (Fin (m + 1) → Fin (m + 1) → K) → Except Err (Fin (m + 1) → Fin (m + 1) → K)) (tol : K) (maxiter : ℤ)
    (A : Fin n → Fin (m + 1) → Iv K) (b : Fin n → Iv K) (hA : ∀ i j, Ordinary (A i j)) (hb : ∀ i, Ordinary (b i))
    (h1 : ∀ c : Fin n → Iv K, (c = (fun i => (b i).rmul R 1) ∨ c = fun i => ((b i).rmul R 1).rmul R (-1)) →
      ∀ V e, rohnUni inv A c (1 / 10 ^ 12) 2000 = .ok (V, e) →
      (∃ err, e = some err ∧ err < 1 / 10 ^ 12) ∧ ∀ j, -10 ^ 15 ≤ (V j).a ∧ (V j).b ≤ 10 ^ 15)
    (h2 : ∀ c : Fin n → Iv K, (c = (fun i => (b i).rmul R 1) ∨ c = fun i => ((b i).rmul R 1).rmul R (-1)) →
      ∀ e, rohnUni inv A c (1 / 10 ^ 12) 2000 = .error e → ∀ x, United A c x → ∀ j, |x j| ≤ 10 ^ 14)
    (nu : Option (Fin (m + 1))) (X : List (Iv K)) (h : pss R lp (startRohn inv A) tol maxiter A b nu = .ok X)
    (x : Fin (m + 1) → K) (hx : United A b x) :
    List.Forall₂ (fun k I => x k ∈ I) (nu.elim (List.finRange (m + 1)) fun k => [k]) X := by
  have hb1 : ∀ i, Ordinary ((b i).rmul R 1) := fun i => (C05_rmul_encloses R 1 (b i) (hb i)).2.2
  have hb2 : ∀ i, Ordinary (((b i).rmul R 1).rmul R (-1)) := fun i => (C05_rmul_encloses R (-1) _ (hb1 i)).2.2
  exact C52_pss_partial hnr lp hlp hc (startRohn inv A) tol maxiter A b hA hb
    (startRohn_ok hn inv A _ hA hb1 (h1 _ (.inl rfl)) (h2 _ (.inl rfl)))
    (startRohn_ok hn inv A _ hA hb2 (h1 _ (.inr rfl)) (h2 _ (.inr rfl))) nu X h x hx

/-! ## When `Rohn` raises -/

/-- `np.linalg.inv` of two-dimensional matrices: `LinAlgError` for singular ones. -/
def inv2 : (Fin 2 → Fin 2 → ℚ) → Except Err (Fin 2 → Fin 2 → ℚ) := fun M =>
  let d := M 0 0 * M 1 1 - M 0 1 * M 1 0
  if d = 0 then .error .linAlgError
  else .ok fun i j => if i = j then M (1 - i) (1 - j) / d else -M i j / d

/-- C52 for systems with more rows than columns and no `x0`, full statement. -/
def C52_overdetermined_statement : Prop :=
  ∀ (lp : LpSolver ℚ (PssRow 3 1) (Fin 2)), LpOK lp → LpComplete lp →
  ∀ (tol : ℚ) (maxiter : ℤ) (A : Fin 3 → Fin 2 → Iv ℚ) (b : Fin 3 → Iv ℚ), (∀ i j, Ordinary (A i j)) →
    (∀ i, Ordinary (b i)) → ∀ X, pss Rnd.exact lp (startRohn inv2 A) tol maxiter A b none = .ok X →
    ∀ x, United A b x → List.Forall₂ (fun k I => x k ∈ I) (List.finRange 2) X

/-- C52 is false for systems with more rows than columns: `Rohn` raises `LinAlgError` when the midpoint matrix is not of
full rank, the search then starts in `±1e14`, and for `[-1, 1] x₁ + [-1, 1] x₂ = 1` (three times), whose solution set is
unbounded, `PSS` returns these numbers as bounds. -/
theorem C52_overdetermined_false : ¬ C52_overdetermined_statement := by
  intro h
  have h0 : pssEnds (pss (Rnd.exact : Rnd ℚ) (pssLpEx 3 1) (startRohn inv2 fun _ _ => ⟨.classical, -1, 1⟩) (1 / 10 ^ 12) 0
      (fun _ _ => ⟨.classical, -1, 1⟩) (fun _ => ⟨.classical, 1, 1⟩) none) =
      some [(-10 ^ 14, 10 ^ 14), (-10 ^ 14, 10 ^ 14)] := by decide +kernel
  cases hX : pss (Rnd.exact : Rnd ℚ) (pssLpEx 3 1) (startRohn inv2 fun _ _ => ⟨.classical, -1, 1⟩) (1 / 10 ^ 12) 0
      (fun _ _ => ⟨.classical, -1, 1⟩) (fun _ => ⟨.classical, 1, 1⟩) none with
  | error e => rw [hX] at h0; cases h0
  | ok X =>
    rw [hX] at h0
    have h1 := h (pssLpEx 3 1) (lpChoice_ok _ _) (lpChoice_complete _ _) _ _ _ _ (fun _ _ => ⟨rfl, by norm_num⟩)
      (fun _ => ⟨rfl, by norm_num⟩) X hX ![10 ^ 15, 0] (by
        refine ⟨fun _ => ![1 / 10 ^ 15, 0], ?_, fun _ => 1, ?_, ?_⟩
        · intro i j; rw [Iv.mem_def]; fin_cases j <;> norm_num
        · intro i; rw [Iv.mem_def]; norm_num
        · intro i; norm_num [Spec.apply, Fin.sum_univ_two])
    have h2 : List.finRange 2 = [0, 1] := by decide
    rw [h2] at h1
    cases h1 with
    | @cons _ I _ L h3 h4 =>
      simp only [pssEnds, List.map_cons, Option.some.injEq, List.cons.injEq, Prod.mk.injEq] at h0
      have h5 := (Iv.mem_def.1 h3).2
      rw [h0.1.2] at h5
      norm_num at h5

/-- A system with three rows for which `Rohn` converges at once: `x₁ = 1`, `x₂ = 2`, `x₁ + x₂ = 3`. -/
def pssTallA : Fin 3 → Fin 2 → Iv ℚ := fun i j =>
  if i = 2 ∨ (i : ℕ) = j then ⟨.classical, 1, 1⟩ else ⟨.classical, 0, 0⟩

/-- Its right-hand side. -/
def pssTallb : Fin 3 → Iv ℚ := fun i => ⟨.classical, (i : ℕ) + 1, (i : ℕ) + 1⟩

/-- The last change and the bounds, for the two right-hand sides. -/
example : ∀ c : Fin 3 → Iv ℚ, (c = (fun i => (pssTallb i).rmul Rnd.exact 1) ∨
    c = fun i => ((pssTallb i).rmul Rnd.exact 1).rmul Rnd.exact (-1)) →
    ∀ V e, rohnUni inv2 pssTallA c (1 / 10 ^ 12) 2000 = .ok (V, e) →
      (∃ err, e = some err ∧ err < 1 / 10 ^ 12) ∧ ∀ j, -10 ^ 15 ≤ (V j).a ∧ (V j).b ≤ 10 ^ 15 := by
  have key : ∀ c : Fin 3 → Iv ℚ,
      (match rohnUni inv2 pssTallA c (1 / 10 ^ 12) 2000 with
        | .ok (V, some e) => decide (e < 1 / 10 ^ 12) && (List.finRange 2).all fun j =>
            decide (-10 ^ 15 ≤ (V j).a) && decide ((V j).b ≤ 10 ^ 15)
        | _ => false) = true → ∀ V e, rohnUni inv2 pssTallA c (1 / 10 ^ 12) 2000 = .ok (V, e) →
      (∃ err, e = some err ∧ err < 1 / 10 ^ 12) ∧ ∀ j, -10 ^ 15 ≤ (V j).a ∧ (V j).b ≤ 10 ^ 15 := by
    intro c h V e hV
    rw [hV] at h
    cases e with
    | none => cases h
    | some e =>
      simp only [Bool.and_eq_true, decide_eq_true_eq, List.all_eq_true, List.mem_finRange, true_imp_iff] at h
      exact ⟨⟨e, rfl, h.1⟩, h.2⟩
  rintro c (rfl | rfl) <;> refine key _ ?_ <;> decide +kernel

end IntvalPy
