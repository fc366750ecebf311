import Verif.PropsRohn
import Mathlib.LinearAlgebra.Matrix.ToLinearEquiv

/-!
# What the convergence of Rohn's method proves about the matrix (C151)

/repo/intvalpy/linear/Rohn.py:64-89.
-/

set_option autoImplicit false
set_option linter.unusedSectionVars false

namespace IntvalPy
open Spec

variable {K : Type*} [Field K] [LinearOrder K] [IsStrictOrderedRing K]

/-- `|v| ≤ G |v|` for a vector that a matrix of the preconditioned interval matrix maps to zero. -/
theorem rohn_kernel {n m : ℕ} (Q : Fin m → Fin n → K) (A : Fin n → Fin m → Iv K) (A' : Fin n → Fin m → K)
    (hA' : InMat A' A) (v : Fin m → K) (hv : ∀ i, apply A' v i = 0) (i : Fin m) :
    |v i| ≤ ∑ j, rohnG Q A i j * |v j| := by
  have := rohn_residual Q A (fun _ => zeroIv) (fun _ => 0) v
    ⟨A', hA', fun _ => 0, fun _ => mem_zero, hv⟩ i
  simpa [rohng, zeroIv, Iv.mid, Iv.rad, Iv.wid, Rnd.exact_nr] using this

/-- C151: if the iteration of `Rohn(A, b)` stops by its tolerance, then every matrix in `A` has full column rank,
whatever the two calls of `np.linalg.inv` returned: the columns are linearly independent. -/
theorem C151_full_rank {n m : ℕ} (hn : 0 < n) (inv : (Fin m → Fin m → K) → Except Err (Fin m → Fin m → K))
    (A : Fin n → Fin m → Iv K) (b : Fin n → Iv K) (tol : K) (ht : 0 ≤ tol) (maxiter : ℤ)
    (hA : ∀ i j, Ordinary (A i j)) (hb : ∀ i, Ordinary (b i)) (X : Fin m → Iv K) (err : K)
    (h : rohnUni inv A b tol maxiter = .ok (X, some err)) (herr : err < tol) (A' : Fin n → Fin m → K)
    (hA' : InMat A' A) (v : Fin m → K) (hv : ∀ i, apply A' v i = 0) : v = 0 := by
  unfold rohnUni at h
  split at h
  · cases h
  · rename_i P hP
    dsimp only at h
    split at h
    · cases h
    · rename_i Q hQ
      have hM : ∀ i l, Ordinary (dotEntry (dotNI Rnd.exact (List.ofFn (P i)) (List.ofFn fun k => A k l))) ∧
          ∑ j, P i j * A' j l ∈ dotEntry (dotNI Rnd.exact (List.ofFn (P i)) (List.ofFn fun k => A k l)) := by
        intro i l
        obtain ⟨Z, h1, h2, h3⟩ := (C26_matmul_point_encloses Rnd.exact (fun j => A j l) (P i) hn (fun j => hA j l)
          (fun j => A' j l) fun j => hA' j l).2
        simp only [h1, dotEntry, Option.getD_some]
        exact ⟨h2, h3⟩
      have hV : ∀ i, Ordinary (dotEntry (dotNI Rnd.exact (List.ofFn (P i)) (List.ofFn b))) := by
        intro i
        obtain ⟨Z, h1, h2, h3⟩ := (C26_matmul_point_encloses Rnd.exact b (P i) hn hb (fun j => (b j).a)
          fun j => ⟨le_refl _, (hb j).2⟩).2
        simp only [h1, dotEntry, Option.getD_some]
        exact h2
      split at h
      · cases h
      · rename_i result error hl
        simp only [Except.ok.injEq, Prod.mk.injEq] at h
        obtain ⟨hX, rfl⟩ := h
        have G0 := rohnG_nonneg Q _ fun i l => (hM i l).1
        have g0 := rohng_nonneg Q _ _ (fun i l => (hM i l).1) hV (fun i => ∑ k, Q i k * Iv.mid Rnd.exact
          (dotEntry (dotNI Rnd.exact (List.ofFn (P k)) (List.ofFn b))))
        obtain ⟨r0, r1⟩ := rohnLoop_spec _ _ tol G0 g0 ht _ _ _ _ _ (fun _ => le_refl _) (by simp) hl
        obtain ⟨d, d0, d1, d2⟩ := r1 err rfl
        have hk := rohn_kernel Q _ (fun i l => ∑ j, P i j * A' j l) (fun i l => (hM i l).2) v fun i => by
          simp only [apply, Finset.sum_mul]
          rw [Finset.sum_comm]
          refine Finset.sum_eq_zero fun j _ => ?_
          have := hv j
          simp only [apply] at this
          simp only [mul_assoc]
          rw [← Finset.mul_sum, this, mul_zero]
        have hd : ∀ i, ∑ j, rohnG Q _ i j * d j + rohng Q _ _ _ i < d i := fun i => by
          have := (abs_le.mp (d2 i)).2
          rw [d1 i] at this
          linarith
        -- all the multiples of `|v|` are below `d`
        have hall : ∀ t : K, 0 ≤ t → ∀ i, t * |v i| ≤ d i := fun t ht0 =>
          le_of_contract _ _ d (fun i => t * |v i|) G0 g0 d0 hd fun i => by
            have h1 := mul_le_mul_of_nonneg_left (hk i) ht0
            rw [Finset.mul_sum] at h1
            have h2 := g0 i
            have h3 : ∀ f : Fin m → K, ∑ j, t * (f j * |v j|) = ∑ j, f j * (t * |v j|) := fun f =>
              Finset.sum_congr rfl fun j _ => by ring
            rw [h3] at h1
            linarith
        funext i
        by_contra hne
        have hp : 0 < |v i| := abs_pos.mpr hne
        have := hall ((d i + 1) / |v i|) (div_nonneg (by linarith [d0 i]) hp.le) i
        rw [div_mul_cancel₀ _ hp.ne'] at this
        linarith

/-- C151: for a square system each choice of the coefficients then has exactly one solution, and it lies in the
returned box. -/
theorem C151_square {n : ℕ} (hn : 0 < n) (inv : (Fin n → Fin n → K) → Except Err (Fin n → Fin n → K))
    (A : Fin n → Fin n → Iv K) (b : Fin n → Iv K) (tol : K) (ht : 0 ≤ tol) (maxiter : ℤ)
    (hA : ∀ i j, Ordinary (A i j)) (hb : ∀ i, Ordinary (b i)) (X : Fin n → Iv K) (err : K)
    (h : rohnUni inv A b tol maxiter = .ok (X, some err)) (herr : err < tol) (A' : Fin n → Fin n → K)
    (hA' : InMat A' A) (b' : Fin n → K) (hb' : InVec b' b) :
    ∃ x, (∀ i, apply A' x i = b' i) ∧ InVec x X ∧ ∀ y, (∀ i, apply A' y i = b' i) → y = x := by
  have ker : ∀ v, (Matrix.of A').mulVec v = 0 → v = 0 := fun v hv =>
    C151_full_rank hn inv A b tol ht maxiter hA hb X err h herr A' hA' v fun i => congrFun hv i
  have det : (Matrix.of A').det ≠ 0 := fun hd => by
    obtain ⟨v, hv, hv'⟩ := Matrix.exists_mulVec_eq_zero_iff.mpr hd
    exact hv (ker v hv')
  have hx : (Matrix.of A').mulVec ((Matrix.of A')⁻¹.mulVec b') = b' := by
    rw [Matrix.mulVec_mulVec, Matrix.mul_nonsing_inv _ (Ne.isUnit det), Matrix.one_mulVec]
  refine ⟨(Matrix.of A')⁻¹.mulVec b', fun i => congrFun hx i, ?_, fun y hy => ?_⟩
  · exact C42_rohn_uni hn inv A b tol ht maxiter hA hb X err h herr _ ⟨A', hA', b', hb', fun i => congrFun hx i⟩
  · have hy' : (Matrix.of A').mulVec y = b' := funext hy
    exact sub_eq_zero.mp (ker _ (by rw [Matrix.mulVec_sub, hy', hx, sub_self]))

/-- A run that stops by the tolerance, so the coefficient `[1/10, 19/10]` is not zero anywhere. -/
example : ∃ X err, rohnUni inv1 (fun (_ _ : Fin 1) => ⟨.classical, 1/10, 19/10⟩) (fun _ => ⟨.classical, 1, 1⟩) 1 200 =
    .ok (X, some err) ∧ err < 1 := by
  have h0 : (rohnRun 1 200).map (fun t => t.2.2.map fun e => decide (e < 1)) = some (some true) := by decide +kernel
  unfold rohnRun at h0
  cases hr : rohnUni inv1 (fun (_ _ : Fin 1) => ⟨.classical, 1/10, 19/10⟩) (fun _ => ⟨.classical, 1, 1⟩) 1 200 with
  | error e => rw [hr] at h0; cases h0
  | ok v =>
    obtain ⟨X, e⟩ := v
    rw [hr] at h0
    cases e with
    | none => cases h0
    | some e => exact ⟨X, e, rfl, by simpa using h0⟩

/-- C151: the condition on the stop is needed: for `[-1, 3] x = 1` a box is returned after the last pass allowed,
though the interval contains zero; `error` is then not below `tol`. -/
theorem C151_maxiter_stop : ∃ (X : Fin 1 → Iv ℚ) (err : ℚ),
    rohnUni inv1 (fun (_ _ : Fin 1) => ⟨.classical, -1, 3⟩) (fun _ => ⟨.classical, 1, 1⟩) (1 / 1000) 20 = .ok (X, some err) ∧
    ¬ err < 1 / 1000 ∧ ∃ A' : Fin 1 → Fin 1 → ℚ, InMat A' (fun _ _ => ⟨.classical, -1, 3⟩) ∧ ∀ v, ∀ i, apply A' v i = 0 := by
  have h0 : (match rohnUni inv1 (fun (_ _ : Fin 1) => (⟨.classical, -1, 3⟩ : Iv ℚ)) (fun _ => ⟨.classical, 1, 1⟩) (1 / 1000) 20 with
      | .ok (_, some err) => decide (¬ err < 1 / 1000)
      | _ => false) = true := by decide +kernel
  cases hr : rohnUni inv1 (fun (_ _ : Fin 1) => (⟨.classical, -1, 3⟩ : Iv ℚ)) (fun _ => ⟨.classical, 1, 1⟩) (1 / 1000) 20 with
  | error e => rw [hr] at h0; cases h0
  | ok v =>
    obtain ⟨X, e⟩ := v
    rw [hr] at h0
    cases e with
    | none => cases h0
    | some e =>
      refine ⟨X, e, rfl, of_decide_eq_true h0, fun _ _ => 0, fun i j => ⟨?_, ?_⟩, fun v i => by simp [apply]⟩ <;> norm_num

end IntvalPy
