import Verif.PropsHBR

/-!
# Property C93: the H-matrix test of `Gauss_Seidel`
-/

set_option autoImplicit false
set_option linter.unusedSectionVars false

namespace IntvalPy
open Spec

variable {K : Type*} [Field K] [LinearOrder K] [IsStrictOrderedRing K]

/-- An interval H-matrix: all point matrices in it are strictly diagonally dominant with the same positive column
weights. -/
def IsHMatrix {n : ℕ} (A : Fin n → Fin n → Iv K) : Prop :=
  ∃ w : Fin n → K, (∀ i, 0 < w i) ∧ ∀ A' : Fin n → Fin n → K, InMat A' A →
    ∀ i, ∑ j ∈ Finset.univ.erase i, |A' i j| * w j < |A' i i| * w i

/-- The full property C93: `Gauss_Seidel` with the preconditioner `C` returns a box only if `C @ A` is an H-matrix. -/
def C93_statement (R : Rnd K) : Prop :=
  ∀ (n : ℕ) (inv : (Fin n → Fin n → K) → Except Err (Fin n → Fin n → K)), InvExact inv →
    ∀ (A : Fin n → Fin n → Iv K) (b : Fin n → Iv K) (x0 : Option (Fin n → Iv K)) (C : Fin n → Fin n → K) (tol : K)
      (maxiter : ℤ) (X : Fin n → Iv K), (∀ i j, Ordinary (A i j)) → (∀ i, Ordinary (b i)) →
      gaussSeidel R inv A b x0 (some (.point C)) tol maxiter = .ok X → IsHMatrix ((Precond.point C).mulMat R A)

theorem hmatrix_row {n : ℕ} (A : Fin n → Fin n → Iv K) (hA : ∀ i j, Ordinary (A i j)) (w : Fin n → K)
    (h : ∀ A' : Fin n → Fin n → K, InMat A' A → ∀ i, ∑ j ∈ Finset.univ.erase i, |A' i j| * w j < |A' i i| * w i)
    (i : Fin n) : ∑ j ∈ Finset.univ.erase i, (A i j).mag * w j < (A i i).mig * w i := by
  choose lo hlo elo using fun j => (C20_characteristics (A i j) (hA i j)).2.1
  choose hi hhi ehi using fun j => (C20_characteristics (A i j) (hA i j)).2.2.1
  have := h (fun k j => if k = i then (if j = i then lo j else hi j) else (A k j).a) (fun k j => by
    dsimp only
    split_ifs with h1 h2
    · subst h1; exact hlo j
    · subst h1; exact hhi j
    · exact ⟨le_refl _, (hA k j).2⟩) i
  simp only [if_true] at this
  rw [elo i] at this
  refine lt_of_le_of_lt (le_of_eq (Finset.sum_congr rfl fun j hj => ?_)) this
  rw [if_neg (Finset.ne_of_mem_erase hj), ehi j]

/-- A right inverse of the comparison matrix of an H-matrix has nonnegative row sums. -/
theorem hmatrix_rowsum {n : ℕ} (A : Fin n → Fin n → Iv K) (hA : ∀ i j, Ordinary (A i j)) (hH : IsHMatrix A)
    (B : Fin n → Fin n → K) (hB : IsInverse (compmat A) B) (i : Fin n) : 0 ≤ ∑ j, B i j := by
  obtain ⟨w, hw, h⟩ := hH
  have row := hmatrix_row A hA w h
  set v : Fin n → K := fun i => ∑ j, B i j with hv
  have hMv : ∀ k, (A k k).mig * v k - ∑ j ∈ Finset.univ.erase k, (A k j).mag * v j = 1 := by
    intro k
    have h1 : ∑ l, compmat A k l * v l = 1 := by
      simp only [hv, Finset.mul_sum]
      rw [Finset.sum_comm]
      simp only [hB k]
      simp
    rw [← Finset.add_sum_erase _ (fun l => compmat A k l * v l) (Finset.mem_univ k)] at h1
    rw [← h1, compmat, if_pos rfl, sub_eq_add_neg, ← Finset.sum_neg_distrib]
    congr 1
    refine Finset.sum_congr rfl fun j hj => ?_
    rw [compmat, if_neg (Finset.ne_of_mem_erase hj).symm, neg_mul]
  have mag0 : ∀ i j, 0 ≤ (A i j).mag := fun i j =>
    (abs_nonneg _).trans ((C20_characteristics (A i j) (hA i j)).1 (A i j).a ⟨le_refl _, (hA i j).2⟩).2
  obtain ⟨k, -, hk⟩ := Finset.exists_min_image Finset.univ (fun i => v i / w i) ⟨i, Finset.mem_univ i⟩
  set t := v k / w k with ht
  by_contra hneg
  push Not at hneg
  have ht0 : t < 0 := lt_of_le_of_lt (hk i (Finset.mem_univ i)) (div_neg_of_neg_of_pos hneg (hw i))
  have hvk : v k = t * w k := by rw [ht, div_mul_cancel₀ _ (hw k).ne']
  have hvj : ∀ j, t * w j ≤ v j := fun j => by
    have := hk j (Finset.mem_univ j)
    rwa [le_div_iff₀ (hw j)] at this
  have h2 : ∑ j ∈ Finset.univ.erase k, (A k j).mag * (t * w j) ≤ ∑ j ∈ Finset.univ.erase k, (A k j).mag * v j :=
    Finset.sum_le_sum fun j _ => mul_le_mul_of_nonneg_left (hvj j) (mag0 k j)
  have h3 : ∑ j ∈ Finset.univ.erase k, (A k j).mag * (t * w j)
      = t * ∑ j ∈ Finset.univ.erase k, (A k j).mag * w j := by
    rw [Finset.mul_sum]; exact Finset.sum_congr rfl fun j _ => by ring
  have h4 := hMv k
  rw [hvk] at h4
  have h5 := mul_lt_mul_of_neg_left (row k) ht0
  nlinarith

/-- The test, in exact arithmetic: some row of `A'` times `v` is positive for every point matrix in `A'`. -/
theorem hTestGS_iff {n : ℕ} (A : Fin n → Fin n → Iv K) (hA : ∀ i j, Ordinary (A i j)) (B : Fin n → Fin n → K) :
    hTestGS Rnd.exact A B = true ↔ ∃ i, ∀ A' : Fin n → K, (∀ j, A' j ∈ A i j) → 0 < ∑ j, A' j * |∑ l, B j l| := by
  unfold hTestGS
  simp only [List.any_eq_true, List.mem_finRange, true_and, Bool.and_eq_true, decide_eq_true_eq]
  refine exists_congr fun i => ?_
  obtain ⟨Z, hZ, r1, ⟨Aa, ha1, ha2⟩, ⟨Ab, hb1, hb2⟩⟩ := C26_matvec_range (A i) (fun j => |∑ l, B j l|) i.pos (hA i)
  rw [hZ]
  show 0 < Z.a ∧ 0 < Z.b ↔ _
  constructor
  · intro h A' hA'
    exact lt_of_lt_of_le h.1 (r1 _ ⟨A', hA', rfl⟩).1
  · intro h
    rw [ha2, hb2]
    exact ⟨h Aa ha1, h Ab hb1⟩

theorem gsLoop_no_assert (R : Rnd K) {n : ℕ} (A : Fin n → Fin n → Iv K) (b : Fin n → Iv K) (tol : K) :
    ∀ (fuel : ℕ) (d : Option K) (pre result : Fin n → Iv K),
      gsLoop R A b tol fuel d pre result ≠ .error .assertionError := by
  have hdiv : ∀ X Y : Iv K, X.div R Y ≠ .error .assertionError := by
    intro X Y h
    have hrec : ∀ c, Iv.recip R c Y ≠ .error .assertionError := by
      intro c h; unfold Iv.recip at h; split_ifs at h <;> cases h
    have hmap : ∀ c (f : Iv K → Iv K), (Iv.recip R c Y).map f ≠ .error .assertionError := by
      intro c f h
      have := hrec c
      cases hr : Iv.recip R c Y with
      | error e => rw [hr] at h this; cases h; exact this rfl
      | ok q => rw [hr] at h; cases h
    unfold Iv.div at h
    by_cases hc : Y.containsNum 0 = true
    · rw [if_pos hc] at h; cases h
    rw [if_neg hc] at h
    rcases X with ⟨_ | _, xa, xb⟩ <;> rcases Y with ⟨_ | _, ya, yb⟩
    · dsimp only at h; split_ifs at h <;> cases h
    · exact hmap _ _ h
    · exact hmap _ _ h
    · exact hmap _ _ h
  have hsw : ∀ (pre : Fin n → Iv K) (ks : List (Fin n)) (result : Fin n → Iv K),
      gsSweep R A b pre ks result ≠ .error .assertionError := by
    intro pre ks
    induction ks with
    | nil => intro result h; cases h
    | cons k ks ih =>
      intro result h
      unfold gsSweep at h
      split at h
      · rename_i e he
        cases h
        exact hdiv _ _ he
      · split at h
        · cases h
        · exact ih _ h
  intro fuel
  induction fuel with
  | zero => intro d pre result h; cases h
  | succ fuel ih =>
    intro d pre result h
    unfold gsLoop at h
    split_ifs at h
    split at h
    · rename_i e he
      cases h
      exact hsw _ _ _ he
    · split at h
      · rename_i e he
        cases h
        unfold distVec npAmax at he
        split at he <;> cases he
      · exact ih _ _ _ h

/-- C93 (what the test tests; exact interval arithmetic, any point preconditioner and any result `B` of the second
inversion): `Gauss_Seidel` raises `AssertionError` exactly when no row of `C @ A`, applied to the absolute row sums of
`B`, is positive for all its point rows. -/
theorem C93_rejects_iff {n : ℕ} (inv : (Fin n → Fin n → K) → Except Err (Fin n → Fin n → K))
    (A : Fin n → Fin n → Iv K) (b : Fin n → Iv K) (x0 : Option (Fin n → Iv K)) (C B : Fin n → Fin n → K) (tol : K)
    (maxiter : ℤ) (hA : ∀ i j, Ordinary (A i j))
    (hB : inv (compmat ((Precond.point C).mulMat Rnd.exact A)) = .ok B) :
    gaussSeidel Rnd.exact inv A b x0 (some (.point C)) tol maxiter = .error .assertionError ↔
      ∀ i, ∃ A' : Fin n → K, (∀ j, A' j ∈ (Precond.point C).mulMat Rnd.exact A i j) ∧
        ∑ j, A' j * |∑ l, B j l| ≤ 0 := by
  have hA1 := (precond_ordinary Rnd.exact C A (fun i => A i i) hA (fun i => hA i i)).1
  have key := hTestGS_iff ((Precond.point C).mulMat Rnd.exact A) hA1 B
  unfold gaussSeidel
  simp only [gsPrecond, hB]
  constructor
  · intro h
    split_ifs at h with ht
    · exact absurd h (gsLoop_no_assert _ _ _ _ _ _ _ _)
    · rw [key] at ht
      push Not at ht
      exact ht
  · intro h
    rw [if_neg]
    rw [key]
    push Not
    exact h

/-- C93 (partial; exact interval arithmetic and exact inverses): an H-matrix with positive diagonal is never rejected.
Missing from `C93_statement`: that other matrices are rejected, see `C93_htest_false`. -/
theorem C93_htest_partial {n : ℕ} (hn : 0 < n) (inv : (Fin n → Fin n → K) → Except Err (Fin n → Fin n → K))
    (hinv : InvExact inv) (A : Fin n → Fin n → Iv K) (b : Fin n → Iv K) (x0 : Option (Fin n → Iv K))
    (C B : Fin n → Fin n → K) (tol : K) (maxiter : ℤ) (hA : ∀ i j, Ordinary (A i j))
    (hB : inv (compmat ((Precond.point C).mulMat Rnd.exact A)) = .ok B)
    (hH : IsHMatrix ((Precond.point C).mulMat Rnd.exact A))
    (hd : ∀ i, 0 < ((Precond.point C).mulMat Rnd.exact A i i).a) :
    gaussSeidel Rnd.exact inv A b x0 (some (.point C)) tol maxiter ≠ .error .assertionError := by
  intro h
  have hA1 := (precond_ordinary Rnd.exact C A (fun i => A i i) hA (fun i => hA i i)).1
  set P := (Precond.point C).mulMat Rnd.exact A with hP
  replace hA1 : ∀ i j, Ordinary (P i j) := hA1
  have hv := hmatrix_rowsum P hA1 hH B (hinv _ _ hB)
  obtain ⟨A', hA', hle⟩ := (C93_rejects_iff inv A b x0 C B tol maxiter hA hB).1 h ⟨0, hn⟩
  set i : Fin n := ⟨0, hn⟩
  simp only [fun j => abs_of_nonneg (hv j)] at hle
  have h1 : ∑ l, compmat P i l * (∑ j, B l j) = 1 := by
    simp only [Finset.mul_sum]
    rw [Finset.sum_comm]
    simp only [hinv _ _ hB i]
    simp
  have h2 : ∑ l, compmat P i l * (∑ j, B l j) ≤ ∑ l, A' l * ∑ j, B l j := by
    refine Finset.sum_le_sum fun l _ => mul_le_mul_of_nonneg_right ?_ (hv l)
    have hc := (C20_characteristics (P i l) (hA1 i l)).1 _ (hA' l)
    unfold compmat
    split_ifs with e
    · subst e
      have : 0 < A' i := lt_of_lt_of_le (hd i) (hA' i).1
      rw [← abs_of_pos this]
      exact hc.1
    · linarith [neg_abs_le (A' l), hc.2]
  linarith

/-! Witnesses. -/

/-- The matrix `[[1, 2], [-2, 1]]`. -/
def gsBadA : Fin 2 → Fin 2 → Iv ℚ := ![![⟨.classical, 1, 1⟩, ⟨.classical, 2, 2⟩], ![⟨.classical, -2, -2⟩, ⟨.classical, 1, 1⟩]]
def gsBadM : Fin 2 → Fin 2 → ℚ := ![![1, -2], ![-2, 1]]
def gsBadB : Fin 2 → Fin 2 → ℚ := ![![-1/3, -2/3], ![-2/3, -1/3]]
def gsEye : Fin 2 → Fin 2 → ℚ := ![![1, 0], ![0, 1]]
/-- An exact inversion routine, defined on the matrix in question. -/
def gsBadInv : (Fin 2 → Fin 2 → ℚ) → Except Err (Fin 2 → Fin 2 → ℚ) := fun M =>
  if M = gsBadM then .ok gsBadB else .error .linAlgError
/-- One pass of `Gauss_Seidel` with the identity as preconditioner. -/
def gsBadRun : Option (ℚ × ℚ) :=
  match gaussSeidel Rnd.exact gsBadInv gsBadA (fun _ => ⟨.classical, 0, 1⟩) none (some (.point gsEye)) 1 0 with
  | .ok X => some ((X 0).a, (X 1).b)
  | .error _ => none

theorem gsBadRun_ok : gsBadRun = some (-1000, 1000) := by decide +kernel

/-- C93 is false: the rotation-like matrix `[[1, 2], [-2, 1]]` is not an H-matrix, but one of its rows passes and
`Gauss_Seidel` goes on. -/
theorem C93_htest_false : ¬ C93_statement (Rnd.exact : Rnd ℚ) := by
  intro h
  have h1 := gsBadRun_ok
  unfold gsBadRun at h1
  split at h1
  · rename_i X hX
    have hH := h 2 gsBadInv (by
      intro M B hM
      unfold gsBadInv at hM
      split_ifs at hM with e
      cases hM; subst e
      unfold IsInverse; decide +kernel) gsBadA (fun _ => ⟨.classical, 0, 1⟩) none gsEye 1 0 X
      (fun i j => ⟨by revert i j; decide, by revert i j; decide +kernel⟩) (fun _ => ⟨rfl, by norm_num⟩) hX
    obtain ⟨w, hw, hd⟩ := hH
    have hm : InMat (![![1, 2], ![-2, 1]] : Fin 2 → Fin 2 → ℚ) ((Precond.point gsEye).mulMat Rnd.exact gsBadA) := by
      intro i j
      rw [Iv.mem_def]
      revert i j
      decide +kernel
    have r0 := hd _ hm 0
    have r1 := hd _ hm 1
    have e0 : (Finset.univ.erase (0 : Fin 2)) = {1} := by decide
    have e1 : (Finset.univ.erase (1 : Fin 2)) = {0} := by decide
    rw [e0, Finset.sum_singleton] at r0
    rw [e1, Finset.sum_singleton] at r1
    norm_num at r0 r1
    linarith [hw 0, hw 1]
  · cases h1

/-- C93: an H-matrix with negative diagonal is rejected, here the one-row system `[-2, -1] x = b`. -/
theorem C93_negative_diagonal (b : Fin 1 → Iv ℚ) (x0 : Option (Fin 1 → Iv ℚ)) (tol : ℚ) (maxiter : ℤ) :
    IsHMatrix (fun _ _ => ⟨.classical, -2, -1⟩ : Fin 1 → Fin 1 → Iv ℚ) ∧
    gaussSeidel Rnd.exact (fun _ => .ok fun _ _ => 1) (fun _ _ => ⟨.classical, -2, -1⟩ : Fin 1 → Fin 1 → Iv ℚ) b x0
      (some (.point fun _ _ => 1)) tol maxiter = .error .assertionError := by
  refine ⟨⟨fun _ => 1, fun _ => one_pos, fun A' hA' i => ?_⟩, ?_⟩
  · have := (hA' i i).2
    simp only [Subsingleton.elim i 0] at this ⊢
    have e0 : (Finset.univ.erase (0 : Fin 1)) = ∅ := by decide
    rw [e0, Finset.sum_empty]
    rw [mul_one, abs_pos]
    intro e; rw [e] at this; norm_num at this
  · rw [C93_rejects_iff (B := fun _ _ => 1) _ _ _ _ _ _ _ (fun _ _ => ⟨rfl, by norm_num⟩) rfl]
    intro i
    refine ⟨fun _ => -1, fun j => ?_, by norm_num⟩
    rw [Iv.mem_def]
    revert i j
    decide +kernel

/-- `C93_htest_partial` on a concrete system. -/
example : IsHMatrix (fun i j => if i = j then ⟨.classical, 2, 3⟩ else ⟨.classical, -1, 1⟩ : Fin 2 → Fin 2 → Iv ℚ) := by
  refine ⟨fun _ => 1, fun _ => one_pos, fun A' hA' i => ?_⟩
  have hii := hA' i i
  simp only [if_true] at hii
  have h1 := hii.1
  have : ∀ j, j ≠ i → |A' i j| ≤ 1 := fun j hj => by
    have := hA' i j
    simp only [if_neg hj.symm] at this
    exact abs_le.2 this
  have h2 : |A' i i| = A' i i := abs_of_nonneg (by simp only at h1; linarith)
  have h3 : ∑ j ∈ Finset.univ.erase i, |A' i j| * 1 ≤ ∑ j ∈ Finset.univ.erase i, (1 : ℚ) :=
    Finset.sum_le_sum fun j hj => by rw [mul_one]; exact this j (Finset.ne_of_mem_erase hj)
  rw [h2]
  simp only [Finset.sum_const, Finset.card_erase_of_mem (Finset.mem_univ i), Finset.card_univ, Fintype.card_fin] at h3
  simp only at h1
  norm_num at h3 ⊢
  linarith

end IntvalPy
