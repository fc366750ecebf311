import Verif.PropsGaussFair
import Verif.PropsHBRSmall

/-!
# What an answer of Gauss proves about the matrix (C155)

/repo/intvalpy/linear/Gauss.py:25-52.
-/

set_option autoImplicit false
set_option linter.unusedSectionVars false

namespace IntvalPy
open Spec

variable {K : Type*} [Field K] [LinearOrder K] [IsStrictOrderedRing K]

/-! ## The course of the elimination does not depend on the right-hand side -/

theorem gaussStep_rhs (R : Rnd K) {n : ℕ} (S T S' : GaussSt K n) (e : T.A = S.A) (j : Fin n) (h : gaussStep R S j = .ok S') :
    ∃ T', gaussStep R T j = .ok T' ∧ T'.A = S'.A := by
  obtain ⟨A, b⟩ := S
  obtain ⟨A', b'⟩ := T
  cases e
  unfold gaussStep at h ⊢
  dsimp only at h ⊢
  split at h
  · cases h
  · rename_i k hk
    split_ifs at h with hm
    rw [if_pos hm]
    have e1 : ((⟨A, b⟩ : GaussSt K n).swap j k).A = ((⟨A, b'⟩ : GaussSt K n).swap j k).A := rfl
    rw [e1] at h
    cases hq : Iv.recip R (((⟨A, b'⟩ : GaussSt K n).swap j k).A j j).cls (((⟨A, b'⟩ : GaussSt K n).swap j k).A j j) with
    | error e => rw [hq] at h; cases h
    | ok q =>
      rw [hq] at h
      cases h
      exact ⟨_, rfl, rfl⟩

theorem gaussForward_rhs (R : Rnd K) {n : ℕ} (js : List (Fin n)) (S T S' : GaussSt K n) (e : T.A = S.A)
    (h : gaussForward R js S = .ok S') : ∃ T', gaussForward R js T = .ok T' ∧ T'.A = S'.A := by
  induction js generalizing S T with
  | nil => cases h; exact ⟨T, rfl, e⟩
  | cons j js ih =>
    unfold gaussForward at h ⊢
    split at h
    · cases h
    · rename_i S1 hS1
      obtain ⟨T1, h1, h2⟩ := gaussStep_rhs R S T S1 e j hS1
      rw [h1]
      exact ih S1 T1 h2 h

theorem gaussForward_ordinary (R : Rnd K) {n : ℕ} (js : List (Fin n)) (S S' : GaussSt K n) (hA : ∀ i j, Ordinary (S.A i j))
    (hb : ∀ i, Ordinary (S.b i)) (h : gaussForward R js S = .ok S') : (∀ i j, Ordinary (S'.A i j)) ∧ ∀ i, Ordinary (S'.b i) := by
  induction js generalizing S with
  | nil => cases h; exact ⟨hA, hb⟩
  | cons j js ih =>
    unfold gaussForward at h
    split at h
    · cases h
    · rename_i S1 hS1
      obtain ⟨h1, h2⟩ := gaussStep_ordinary R S S1 hA hb j hS1
      exact ih S1 h1 h2 h

theorem gaussBack_pivots (R : Rnd K) {n : ℕ} (S : GaussSt K n) (hA : ∀ i j, Ordinary (S.A i j)) (hb : ∀ i, Ordinary (S.b i))
    (is : List (Fin n)) (x y : Fin n → Iv K) (hx : ∀ i, Ordinary (x i)) (h : gaussBack R S is x = .ok y) :
    ∀ i ∈ is, ¬ (0 : K) ∈ S.A i i := by
  induction is generalizing x with
  | nil => intro i hi; cases hi
  | cons i is ih =>
    unfold gaussBack at h
    split at h
    · cases h
    · rename_i Z hZ
      have hs := (subSum_encloses R (S.b i) (S.b i).a (hb i) ⟨le_refl _, (hb i).2⟩
        ((List.finRange n).filter fun l => i ≤ l) (fun l => (S.A i l).mul R (x l))
        (fun l => ((S.A i l).mul R (x l)).a) fun l _ =>
          ⟨C02_mul_ordinary R _ _ (hA i l) (hx l), le_refl _, (C02_mul_ordinary R _ _ (hA i l) (hx l)).2⟩).2
      have h0 : ¬ (0 : K) ∈ S.A i i := fun h0 => by
        rw [((C03_div_error_iff R _ _ hs (hA i i)).1).mpr h0] at hZ
        cases hZ
      obtain ⟨Z', z1, z2⟩ := ((C03_div_error_iff R _ _ hs (hA i i)).2).mpr h0
      have ez : Z' = Z := Except.ok.inj (z1.symm.trans hZ)
      have := ih (Function.update x i Z) (fun j => by
        by_cases e : j = i
        · subst e; rw [Function.update_self]; exact ez ▸ z2
        · rw [Function.update_of_ne e]; exact hx j) h
      intro j hj
      rcases List.mem_cons.mp hj with e | e
      · exact e ▸ h0
      · exact this j e

theorem mig_pos_of_not_mem {X : Iv K} (hX : Ordinary X) (h : ¬ (0 : K) ∈ X) : 0 < X.mig := by
  obtain ⟨_, ⟨y, hy, e⟩, _, _⟩ := C20_characteristics X hX
  exact e ▸ abs_pos.mpr fun h0 => h (h0 ▸ hy)

/-- C155: whether `Gauss` returns depends on the matrix only. -/
theorem C155_rhs (R : Rnd K) {n : ℕ} (A : Fin n → Fin n → Iv K) (b b' X : Fin n → Iv K) (hA : ∀ i j, Ordinary (A i j))
    (hb : ∀ i, Ordinary (b i)) (hb' : ∀ i, Ordinary (b' i)) (h : gauss R A b = .ok X) : ∃ X', gauss R A b' = .ok X' := by
  unfold gauss at h ⊢
  split at h
  · cases h
  · rename_i S hS
    obtain ⟨T, h1, h2⟩ := gaussForward_rhs R _ ⟨A, b⟩ ⟨A, b'⟩ S rfl hS
    obtain ⟨oA, ob⟩ := gaussForward_ordinary R _ ⟨A, b⟩ S hA hb hS
    obtain ⟨oA', ob'⟩ := gaussForward_ordinary R _ ⟨A, b'⟩ T hA hb' h1
    have hp := gaussBack_pivots R S oA ob _ _ _ (fun _ => ordinary_zero) h
    rw [h1]
    refine back_total R T oA' ob' (fun i => ?_) _ _ fun _ => ordinary_zero
    rw [h2]
    exact mig_pos_of_not_mem (oA i i) (hp i (by simp))

/-- The full property C155: an answer of `Gauss` proves that every matrix in `A` is regular. -/
def C155_statement (R : Rnd K) : Prop :=
  ∀ (n : ℕ) (A : Fin n → Fin n → Iv K) (b X : Fin n → Iv K), (∀ i j, Ordinary (A i j)) → (∀ i, Ordinary (b i)) →
    gauss R A b = .ok X → OnlyTrivial A

/-- If the solutions of the homogeneous system lie in a box, they are trivial. -/
theorem onlyTrivial_of_box {n : ℕ} (A : Fin n → Fin n → Iv K) (X : Fin n → Iv K)
    (h : ∀ x, United A (fun _ => zeroIv) x → InVec x X) : OnlyTrivial A := by
  intro Q hQ x hx i
  by_contra hi
  have ht : ∀ t : K, t * x i ∈ X i := fun t => h (fun j => t * x j) ⟨Q, hQ, fun _ => 0, fun _ => mem_zero, fun k => by
    have : apply Q (fun j => t * x j) k = t * ∑ j, Q k j * x j := by
      simp only [apply, Finset.mul_sum]
      exact Finset.sum_congr rfl fun _ _ => by ring
    rw [this, hx k, mul_zero]⟩ i
  have h1 := (ht (((X i).b + 1) / x i)).2
  rw [div_mul_cancel₀ _ hi] at h1
  linarith

theorem eachPass_rhs (R : Rnd K) {n : ℕ} (js : List (Fin n)) (S T : GaussSt K n) (e : T.A = S.A)
    (h : EachPass R (FairPass R) js S) : EachPass R (FairPass R) js T := by
  induction js generalizing S T with
  | nil => trivial
  | cons j js ih =>
    obtain ⟨A, b⟩ := S
    obtain ⟨A', b'⟩ := T
    cases e
    intro k q h1 h2 h3
    obtain ⟨h4, h5⟩ := h k q h1 h2 h3
    exact ⟨h4, ih (((⟨A, b⟩ : GaussSt K n).swap j k).eliminate R j q) _ rfl h5⟩

/-- C155 (partial): with one or two unknowns an answer of `Gauss` proves that every matrix in `A` is regular, for every rounding.
Missing from `C155_statement`: three and more unknowns (false for three, `C155_false`). -/
theorem C155_two_partial (R : Rnd K) {n : ℕ} (hn : n ≤ 2) (A : Fin n → Fin n → Iv K) (b X : Fin n → Iv K)
    (hA : ∀ i j, Ordinary (A i j)) (hb : ∀ i, Ordinary (b i)) (h : gauss R A b = .ok X) : OnlyTrivial A := by
  obtain ⟨X', h'⟩ := C155_rhs R A b (fun _ => zeroIv) X hA hb (fun _ => ordinary_zero) h
  exact onlyTrivial_of_box A X' fun x hx => C37_gauss_partial R hn A _ X' hA (fun _ => ordinary_zero) h' x hx

/-- C155 (partial): the same for upper triangular matrices of any size.  Missing from `C155_statement`: other matrices. -/
theorem C155_triangular_partial (R : Rnd K) {n : ℕ} (A : Fin n → Fin n → Iv K) (b X : Fin n → Iv K)
    (hA : ∀ i j, Ordinary (A i j)) (hb : ∀ i, Ordinary (b i)) (hz : ∀ i l, l < i → A i l = ⟨.classical, 0, 0⟩)
    (h : gauss R A b = .ok X) : OnlyTrivial A := by
  obtain ⟨X', h'⟩ := C155_rhs R A b (fun _ => zeroIv) X hA hb (fun _ => ordinary_zero) h
  exact onlyTrivial_of_box A X' fun x hx => C37_gauss_triangular_partial R A _ X' hA (fun _ => ordinary_zero) hz h' x hx

/-- C155 (partial): the same for every run in which the subtracted products contain the right ones.  Missing from
`C155_statement`: runs in which they do not. -/
theorem C155_fair_partial (R : Rnd K) {n : ℕ} (A : Fin n → Fin n → Iv K) (b X : Fin n → Iv K)
    (hA : ∀ i j, Ordinary (A i j)) (hb : ∀ i, Ordinary (b i)) (hf : EachPass R (FairPass R) (gaussCols n) ⟨A, b⟩)
    (h : gauss R A b = .ok X) : OnlyTrivial A := by
  obtain ⟨X', h'⟩ := C155_rhs R A b (fun _ => zeroIv) X hA hb (fun _ => ordinary_zero) h
  exact onlyTrivial_of_box A X' fun x hx =>
    C37_gauss_fair_partial R A _ X' hA (fun _ => ordinary_zero) (eachPass_rhs R _ ⟨A, b⟩ _ rfl hf) h' x hx

/-- A singular point matrix: the third row is the sum of the others. -/
def gaussSing : Fin 3 → Fin 3 → Iv ℚ := fun i j =>
  let q : ℚ := (![![2, 1, 1], ![0, 1, 0], ![2, 2, 1]] : Fin 3 → Fin 3 → ℚ) i j
  ⟨.classical, q, q⟩
/-- The result of `Gauss` for a right-hand side with which the system has no solution. -/
def gaussSingRun (i : Fin 3) : Option (ℚ × ℚ) :=
  match gauss Rnd.exact gaussSing (fun i => if i = 2 then ⟨.classical, 1, 1⟩ else ⟨.classical, 0, 0⟩) with
  | .ok X => some ((X i).a, (X i).b)
  | .error _ => none

/-- C155 is false of the code for three unknowns: `Gauss` returns a point for a singular point matrix (and a right-hand side for
which there is no solution). -/
theorem C155_false : ¬ C155_statement (Rnd.exact : Rnd ℚ) := by
  intro h
  have h1 : gaussSingRun 0 ≠ none := by decide +kernel
  unfold gaussSingRun at h1
  split at h1
  · rename_i X hX
    have := h 3 gaussSing _ X (fun i j => ⟨rfl, le_refl _⟩)
      (fun i => by fin_cases i <;> exact ⟨rfl, le_refl _⟩) hX ![![2, 1, 1], ![0, 1, 0], ![2, 2, 1]]
      (fun i j => ⟨le_refl _, le_refl _⟩) ![1, 0, -2] (by decide +kernel) 0
    exact absurd this (by decide)
  · exact absurd rfl h1

/-- The returned point is `(-1/2, 1/2, 1/2)`. -/
example : gaussSingRun 0 = some (-1/2, -1/2) ∧ gaussSingRun 1 = some (1/2, 1/2) ∧ gaussSingRun 2 = some (1/2, 1/2) := by
  decide +kernel

/-- The hypotheses of `C155_two_partial` are satisfiable. -/
example : barthRun 0 = some (-5, 5) := by decide +kernel

end IntvalPy
