import Verif.ModelRohnRnd
import Verif.PropsRohn
import Verif.ProofsFloat

/-!
# Rohn's method in double arithmetic (C160)
-/

set_option autoImplicit false
set_option linter.unusedSectionVars false

namespace IntvalPy
open Spec
variable {K : Type*} [Field K] [LinearOrder K] [IsStrictOrderedRing K]

/-- C160 as stated in properties.jsonl: a run that stops by its tolerance encloses the united solution set, in double
arithmetic (for one size, data with double ends and an exact inverse of 1x1 matrices it is already false). -/
def C160_statement : Prop := ∀ (n m : ℕ), 0 < n → ∀ (inv : (Fin m → Fin m → ℚ) → Except Err (Fin m → Fin m → ℚ))
  (A : Fin n → Fin m → Iv ℚ) (b : Fin n → Iv ℚ) (tol : ℚ) (maxiter : ℤ), 0 < tol → (∀ i j, Ordinary (A i j)) →
  (∀ i, Ordinary (b i)) → ∀ (X : Fin m → Iv ℚ) (err : ℚ), rohnUniR Rnd.b64 inv A b tol maxiter = .ok (X, some err) →
  err < tol → ∀ x, United A b x → InVec x X

theorem nrDot_exact {n : ℕ} (x y : Fin n → K) : nrDot Rnd.exact x y = ∑ k, x k * y k := by
  unfold nrDot
  simp only [Rnd.exact_nr, id]
  have h : ∀ (l : List K) (s : K), l.foldl (fun s t => s + t) s = s + l.sum := by
    intro l
    induction l with
    | nil => intro s; simp
    | cons a l ih => intro s; rw [List.foldl_cons, ih, List.sum_cons]; ring
  rw [h, List.sum_ofFn, zero_add]

/-- Without rounding the model is the exact one. -/
theorem rohnLoopR_exact {m : ℕ} (G : Fin m → Fin m → K) (g : Fin m → K) (tol : K) :
    ∀ (fuel : ℕ) (d : Fin m → K) (e : Option K), rohnLoopR Rnd.exact G g tol fuel d e = rohnLoop G g tol fuel d e := by
  intro fuel
  induction fuel with
  | zero => intro d e; rfl
  | succ k ih =>
    intro d e
    unfold rohnLoopR rohnLoop
    simp only [nrDot_exact, Rnd.exact_nr, id, ih]
    generalize npAmax (List.ofFn fun i => |∑ k, G i k * d k + g i + tol - d i|) = o
    cases o <;> rfl

/-- C160: without rounding the model is the one of C42, for every input. -/
theorem C160_exact {n m : ℕ} (inv : (Fin m → Fin m → K) → Except Err (Fin m → Fin m → K)) (A : Fin n → Fin m → Iv K)
    (b : Fin n → Iv K) (tol : K) (maxiter : ℤ) :
    rohnUniR Rnd.exact inv A b tol maxiter = rohnUni inv A b tol maxiter := by
  have hp : ∀ {k l : ℕ} (i' : (Fin l → Fin l → K) → Except Err (Fin l → Fin l → K)) (M : Fin k → Fin l → K),
      pseudoInvR Rnd.exact i' M = pseudoInv i' M := by
    intro k l i' M
    simp only [pseudoInvR, pseudoInv, nrDot_exact]
  have hG : ∀ {k l : ℕ} (Q : Fin l → Fin k → K) (B : Fin k → Fin l → Iv K), rohnGR Rnd.exact Q B = rohnG Q B := by
    intro k l Q B
    funext i j
    simp only [rohnGR, rohnG, nrDot_exact, Rnd.exact_nr, id]
  have hg : ∀ {k l : ℕ} (Q : Fin l → Fin k → K) (B : Fin k → Fin l → Iv K) (c : Fin k → Iv K) (x0 : Fin l → K),
      rohngR Rnd.exact Q B c x0 = rohng Q B c x0 := by
    intro k l Q B c x0
    funext i
    simp only [rohngR, rohng, nrDot_exact, Rnd.exact_nr, id]
  unfold rohnUniR rohnUni
  simp only [hp, hG, hg, nrDot_exact, rohnLoopR_exact, Rnd.exact_nr, id]
  rfl

/-- C160, the part that survives rounding: whatever point `x0`, preconditioner `P`, approximate inverse `Q` and radii `d`
were computed, if the radii satisfy the inequality `G d + g < d` exactly for the interval matrix `P @ A` and vector
`P @ b` computed with outward rounding, every solution differs from `x0` by at most `d`. -/
theorem C160_certificate_partial (R : Rnd K) {n m : ℕ} (hn : 0 < n) (P : Fin m → Fin n → K) (Q : Fin m → Fin m → K)
    (A : Fin n → Fin m → Iv K) (b : Fin n → Iv K) (x0 d : Fin m → K) (hA : ∀ i j, Ordinary (A i j))
    (hb : ∀ i, Ordinary (b i)) (A' : Fin m → Fin m → Iv K) (b' : Fin m → Iv K)
    (hA' : A' = fun i l => dotEntry (dotNI R (List.ofFn (P i)) (List.ofFn fun k => A k l)))
    (hb' : b' = fun i => dotEntry (dotNI R (List.ofFn (P i)) (List.ofFn b)))
    (d0 : ∀ i, 0 ≤ d i) (hd : ∀ i, ∑ j, rohnG Q A' i j * d j + rohng Q A' b' x0 i < d i)
    (x : Fin m → K) (hx : United A b x) (i : Fin m) : |x i - x0 i| ≤ d i := by
  obtain ⟨h1, h2, h3⟩ := leftMul_solution R hn P A b hA hb x hx
  rw [← hA', ← hb'] at h1
  have o1 : ∀ i l, Ordinary (A' i l) := by rw [hA']; exact h2
  have o2 : ∀ i, Ordinary (b' i) := by rw [hb']; exact h3
  exact le_of_contract _ _ d (fun i => |x i - x0 i|) (rohnG_nonneg Q A' o1) (rohng_nonneg Q A' b' o1 o2 x0) d0 hd
    (rohn_residual Q A' b' x0 x h1) i

/-- The inverse of a 1x1 matrix, rounded. -/
def rrInv (M : Fin 1 → Fin 1 → ℚ) : Except Err (Fin 1 → Fin 1 → ℚ) :=
  if M 0 0 = 0 then .error .linAlgError else .ok fun _ _ => Rnd.b64.nr (1 / M 0 0)

/-- Ends of the answer and the last `error` of a run for one equation with one unknown. -/
def rrRun (a b : Iv ℚ) (tol : ℚ) (maxiter : ℤ) : Option (ℚ × ℚ × Option ℚ) :=
  match rohnUniR (n := 1) Rnd.b64 rrInv (fun _ _ => a) (fun _ => b) tol maxiter with
  | .ok (X, e) => some ((X 0).a, (X 0).b, e)
  | .error _ => none

/-- `1e-12`, the default tolerance, as a double. -/
def rrTol : ℚ := 4951760157141521 / 2 ^ 92

/-- The tolerance is the double next to `1e-12`. -/
example : (Rnd.b64 (K := ℚ)).nr (1 / 10 ^ 12) = rrTol := by decide +kernel

theorem rrRun_singular : rrRun ⟨.classical, 0, 2⟩ ⟨.classical, 0, 0⟩ rrTol 2000 =
    some (-4 * rrTol, 4 * rrTol, some (309485009821345 / 2 ^ 88)) := by decide +kernel

theorem rrRun_large : rrRun ⟨.classical, 1, 1⟩ ⟨.classical, 2 ^ 70, 2 ^ 70 + 2 ^ 18⟩ rrTol 2000 =
    some (2 ^ 70 - 2 ^ 17, 2 ^ 70, some 0) := by decide +kernel

/-- Where the roundings are: products and sums of `@`, the change of one pass, the interval product with the right-hand
side. -/
example : nrDot (Rnd.b64 (K := ℚ)) ![-(1 + 1 / 2 ^ 51), 1 + 1 / 2 ^ 52] ![1, 1 + 1 / 2 ^ 52] = 0 ∧
    nrDot (Rnd.b64 (K := ℚ)) ![2 ^ 53, 1] ![1, 1] = 2 ^ 53 ∧
    (match rohnLoopR (m := 1) (Rnd.b64 (K := ℚ)) (fun _ _ => 0) (fun _ => 2 ^ 53) 0 1 (fun _ => -1) none with
      | .ok (r, e) => some (r 0, e) | .error _ => none) = some (2 ^ 53, some (2 ^ 53)) ∧
    rrRun ⟨.classical, 3, 3⟩ ⟨.classical, 5, 5⟩ rrTol 0 =
      some (7505999378946321 / 2 ^ 52, 7505999378955331 / 2 ^ 52, some (1238192010700079 / 2 ^ 90)) := by
  decide +kernel

theorem rrRun_spec {a b : Iv ℚ} {tol : ℚ} {maxiter : ℤ} {l u : ℚ} {e : Option ℚ}
    (h : rrRun a b tol maxiter = some (l, u, e)) :
    ∃ X, rohnUniR (n := 1) Rnd.b64 rrInv (fun _ _ => a) (fun _ => b) tol maxiter = .ok (X, e) ∧ (X 0).a = l ∧ (X 0).b = u := by
  unfold rrRun at h
  split at h
  · rename_i X e' hX
    simp only [Option.some.injEq, Prod.mk.injEq] at h
    obtain ⟨h1, h2, rfl⟩ := h
    exact ⟨X, hX, h1, h2⟩
  · cases h

theorem rr_united {a b : Iv ℚ} {s t x : ℚ} (hs : s ∈ a) (ht : t ∈ b) (h : s * x = t) :
    United (fun (_ _ : Fin 1) => a) (fun _ => b) (fun _ => x) :=
  ⟨fun _ _ => s, fun _ _ => hs, fun _ => t, fun _ => ht, fun _ => by simpa [Spec.apply] using h⟩

/-- C160, singular matrix: for the equation `[0, 2] x = 0`, which every number solves, the run with the default tolerance
stops after four passes with `error < tol`, because `4e-12 - 3e-12` is less than `1e-12` in double arithmetic, and
returns `[-4e-12, 4e-12]`.  In exact arithmetic such a stop proves that no matrix is singular (C151). -/
theorem C160_singular_false : ∃ X err, rohnUniR (n := 1) Rnd.b64 rrInv (fun _ _ => ⟨.classical, 0, 2⟩)
      (fun _ => ⟨.classical, 0, 0⟩) rrTol 2000 = .ok (X, some err) ∧ err < rrTol ∧ (X 0).a = -4 * rrTol ∧
      (X 0).b = 4 * rrTol ∧ ∀ x : ℚ, United (fun (_ _ : Fin 1) => (⟨.classical, 0, 2⟩ : Iv ℚ))
        (fun _ => ⟨.classical, 0, 0⟩) (fun _ => x) := by
  obtain ⟨X, h1, h2, h3⟩ := rrRun_spec rrRun_singular
  refine ⟨X, _, h1, by norm_num [rrTol], h2, h3, fun x => rr_united (s := 0) (t := 0) ?_ ?_ (by ring)⟩
  · rw [Iv.mem_def]; norm_num
  · rw [Iv.mem_def]; norm_num

/-- C160, regular matrix: `1 * x = [2^70, 2^70 + 2^18]` gives `[2^70 - 2^17, 2^70]`; only one point of the solution set
is enclosed. -/
theorem C160_regular_false : ∃ X err, rohnUniR (n := 1) Rnd.b64 rrInv (fun _ _ => ⟨.classical, 1, 1⟩)
      (fun _ => ⟨.classical, 2 ^ 70, 2 ^ 70 + 2 ^ 18⟩) rrTol 2000 = .ok (X, some err) ∧ err < rrTol ∧
      ∀ x : ℚ, 2 ^ 70 < x → x ≤ 2 ^ 70 + 2 ^ 18 → United (fun (_ _ : Fin 1) => (⟨.classical, 1, 1⟩ : Iv ℚ))
        (fun _ => ⟨.classical, 2 ^ 70, 2 ^ 70 + 2 ^ 18⟩) (fun _ => x) ∧ ¬ InVec (fun _ => x) X := by
  obtain ⟨X, h1, h2, h3⟩ := rrRun_spec rrRun_large
  refine ⟨X, _, h1, by norm_num [rrTol], fun x hx hx' => ⟨rr_united (s := 1) (t := x) ?_ ?_ (by ring), fun hc => ?_⟩⟩
  · rw [Iv.mem_def]; norm_num
  · rw [Iv.mem_def]; exact ⟨hx.le, hx'⟩
  · have := (hc 0).2
    rw [h3] at this
    linarith

/-- C160 is false of the code. -/
theorem C160_false : ¬ C160_statement := by
  intro h
  obtain ⟨X, err, h1, h2, h3, h4, h5⟩ := C160_singular_false
  have := (h 1 1 one_pos rrInv _ _ rrTol 2000 (by norm_num [rrTol]) (fun _ _ => ⟨rfl, by norm_num⟩)
    (fun _ => ⟨rfl, le_refl _⟩) X err h1 h2 _ (h5 1) 0).2
  rw [h4] at this
  norm_num [rrTol] at this

/-- The certificate on data that are not points: `[2, 4] x = [1, 3]` with `P = 1/4`, `Q = 1`, `x0 = 1` and radius 3. -/
example (x : Fin 1 → ℚ) (hx : United (fun (_ _ : Fin 1) => (⟨.classical, 2, 4⟩ : Iv ℚ)) (fun _ => ⟨.classical, 1, 3⟩) x) :
    |x 0 - 1| ≤ 3 :=
  C160_certificate_partial Rnd.b64 one_pos (fun _ _ => 1 / 4) (fun _ _ => 1) _ _ (fun _ => 1) (fun _ => 3)
    (fun _ _ => ⟨rfl, by norm_num⟩) (fun _ => ⟨rfl, by norm_num⟩) _ _ rfl rfl (fun _ => by norm_num)
    (by decide +kernel) x hx 0

/-- C160, the computed stop with room for rounding: `r` is the computed vector of a pass that started from `d`.  If the
rounding errors of the pass are at most `s` (the computed numbers may be smaller than the exact ones by `s`) and the
difference of `r` and `d` is below `tol - s`, then every solution differs from `x0` by at most `d`. -/
theorem C160_slack_partial (R : Rnd K) {n m : ℕ} (hn : 0 < n) (P : Fin m → Fin n → K) (Q : Fin m → Fin m → K)
    (A : Fin n → Fin m → Iv K) (b : Fin n → Iv K) (x0 d r : Fin m → K) (tol s : K) (hA : ∀ i j, Ordinary (A i j))
    (hb : ∀ i, Ordinary (b i)) (A' : Fin m → Fin m → Iv K) (b' : Fin m → Iv K)
    (hA' : A' = fun i l => dotEntry (dotNI R (List.ofFn (P i)) (List.ofFn fun k => A k l)))
    (hb' : b' = fun i => dotEntry (dotNI R (List.ofFn (P i)) (List.ofFn b)))
    (d0 : ∀ i, 0 ≤ d i) (hr : ∀ i, ∑ j, rohnG Q A' i j * d j + rohng Q A' b' x0 i + tol ≤ r i + s)
    (hs : ∀ i, r i - d i < tol - s) (x : Fin m → K) (hx : United A b x) (i : Fin m) : |x i - x0 i| ≤ d i :=
  C160_certificate_partial R hn P Q A b x0 d hA hb A' b' hA' hb' d0 (fun i => by linarith [hr i, hs i]) x hx i

end IntvalPy
