import Verif.PropsGauss
import Mathlib.LinearAlgebra.Matrix.NonsingularInverse
import Mathlib.Algebra.Order.BigOperators.Group.Finset
import Mathlib.Tactic.LinearCombination

/-!
# HBR (C44)
-/

set_option autoImplicit false
set_option linter.unusedSectionVars false

namespace IntvalPy
open Spec

variable {K : Type*} [Field K] [LinearOrder K] [IsStrictOrderedRing K]

/-- `B` is a right inverse of `M`. -/
def IsInverse {n : ℕ} (M B : Fin n → Fin n → K) : Prop := ∀ i j, ∑ l, M i l * B l j = if i = j then 1 else 0

/-- `B` is a right inverse of `M` up to `δ` in every entry. -/
def IsApproxInverse {n : ℕ} (δ : K) (M B : Fin n → Fin n → K) : Prop :=
  ∀ i j, |(∑ l, M i l * B l j) - if i = j then 1 else 0| ≤ δ

/-- The matrix inversion routine is exact. -/
def InvExact {n : ℕ} (inv : (Fin n → Fin n → K) → Except Err (Fin n → Fin n → K)) : Prop :=
  ∀ M B, inv M = .ok B → IsInverse M B

/-- `M` is inverse nonnegative (for a comparison matrix: an M-matrix). -/
def InvNonneg {n : ℕ} (M : Fin n → Fin n → K) : Prop := ∀ B, IsInverse M B → ∀ i j, 0 ≤ B i j

/-- `A`, preconditioned with the approximate inverse `C` of its midpoint. -/
def preA {n : ℕ} (R : Rnd K) (C : Fin n → Fin n → K) (A : Fin n → Fin n → Iv K) : Fin n → Fin n → Iv K :=
  (Precond.point C).mulMat R A

theorem allOk_spec {n : ℕ} (f : Fin n → Except Err (Iv K)) (X : Fin n → Iv K) (h : allOk f = .ok X) (i : Fin n) :
    f i = .ok (X i) := by
  unfold allOk at h
  split at h
  · cases h
  · rename_i hn
    cases h
    rw [List.findSome?_eq_none_iff] at hn
    have := hn i (List.mem_finRange i)
    cases hf : f i with
    | error e => rw [hf] at this; cases this
    | ok Z => simp only [hf, valOf]

theorem allOk_ok {n : ℕ} (f : Fin n → Except Err (Iv K)) (h : ∀ i, ∃ X, f i = .ok X) : ∃ X, allOk f = .ok X := by
  have : ((List.finRange n).findSome? fun i => errOf (f i)) = none := by
    rw [List.findSome?_eq_none_iff]
    intro i _
    obtain ⟨X, hX⟩ := h i
    rw [hX, errOf]
  unfold allOk
  rw [this]
  exact ⟨_, rfl⟩

theorem maxOf_zero (l : List K) (h : ∀ x ∈ l, x = 0) : maxOf l = 0 := by
  cases l with
  | nil => rfl
  | cons x xs =>
    have hx := h x (by simp)
    subst hx
    have : ∀ xs : List K, (∀ x ∈ xs, x = 0) → xs.foldl max 0 = 0 := by
      intro xs
      induction xs with
      | nil => intro _; rfl
      | cons a t ih =>
        intro ha
        have h0 := ha a (by simp)
        subst h0
        simpa using ih fun x hx => ha x (by simp [hx])
    exact this xs fun x hx => h x (by simp [hx])

/-- A right inverse is a left inverse. -/
theorem IsInverse.left {n : ℕ} {M B : Fin n → Fin n → K} (h : IsInverse M B) (i j : Fin n) :
    ∑ l, B i l * M l j = if i = j then 1 else 0 := by
  have h1 : (Matrix.of M) * (Matrix.of B) = 1 := by
    ext i j
    rw [Matrix.mul_apply, Matrix.one_apply]
    exact h i j
  have h2 := mul_eq_one_comm.mp h1
  have := congrFun (congrFun h2 i) j
  rwa [Matrix.mul_apply, Matrix.one_apply] at this

theorem precond_ordinary (R : Rnd K) {n : ℕ} (C : Fin n → Fin n → K) (A : Fin n → Fin n → Iv K) (b : Fin n → Iv K)
    (hA : ∀ i j, Ordinary (A i j)) (hb : ∀ i, Ordinary (b i)) :
    (∀ i j, Ordinary (preA R C A i j)) ∧ ∀ i, Ordinary ((Precond.point C).mulVec R b i) := by
  constructor
  · intro i l
    obtain ⟨Z, h1, h2, h3⟩ := (C26_matmul_point_encloses R (fun j => A j l) (C i) i.pos (fun j => hA j l)
      (fun j => (A j l).a) fun j => ⟨le_refl _, (hA j l).2⟩).2
    simp only [preA, Precond.mulMat, h1, dotEntry, Option.getD_some]
    exact h2
  · intro i
    obtain ⟨Z, h1, h2, h3⟩ := (C26_matmul_point_encloses R b (C i) i.pos hb (fun j => (b j).a)
      fun j => ⟨le_refl _, (hb j).2⟩).2
    simp only [Precond.mulVec, h1, dotEntry, Option.getD_some]
    exact h2

/-- Splitting an error bounded by `β + α |x|`. -/
theorem split_error (e x α β : K) (hα : 0 ≤ α) (hβ : 0 ≤ β) (h : |e| ≤ β + α * |x|) :
    ∃ δ, |δ| ≤ α ∧ |δ * x - e| ≤ β := by
  by_cases h1 : |e| ≤ α * |x|
  · by_cases hx : x = 0
    · subst hx
      refine ⟨0, by simpa using hα, ?_⟩
      have : e = 0 := by simpa using h1
      simpa [this] using hβ
    · refine ⟨e / x, ?_, ?_⟩
      · rw [abs_div, div_le_iff₀ (abs_pos.mpr hx)]; exact h1
      · rw [div_mul_cancel₀ _ hx]; simpa using hβ
  · push Not at h1
    rcases le_total 0 e with he | he <;> rcases le_total 0 x with hx | hx
    · refine ⟨α, by rw [abs_of_nonneg hα], ?_⟩
      rw [abs_of_nonneg he, abs_of_nonneg hx] at h1 h
      rw [abs_of_nonpos (by linarith)]; linarith
    · refine ⟨-α, by rw [abs_neg, abs_of_nonneg hα], ?_⟩
      rw [abs_of_nonneg he, abs_of_nonpos hx] at h1 h
      rw [abs_of_nonpos (by linarith)]; linarith
    · refine ⟨-α, by rw [abs_neg, abs_of_nonneg hα], ?_⟩
      rw [abs_of_nonpos he, abs_of_nonneg hx] at h1 h
      rw [abs_of_nonneg (by linarith)]; linarith
    · refine ⟨α, by rw [abs_of_nonneg hα], ?_⟩
      rw [abs_of_nonpos he, abs_of_nonpos hx] at h1 h
      rw [abs_of_nonneg (by linarith)]; linarith

theorem mem_mkSym (t e : K) (h : |e| ≤ t) : e ∈ mkSym t ∧ Ordinary (mkSym t) := by
  have h0 : 0 ≤ t := (abs_nonneg e).trans h
  have : ¬ t < -t := by linarith
  rw [mkSym, if_neg this]
  exact ⟨⟨by linarith [neg_abs_le e], (le_abs_self e).trans h⟩, rfl, by simp only; linarith⟩

/-- The comparison matrix applied to `|x|` is bounded by the magnitude of the right-hand side. -/
theorem compmat_bound {n : ℕ} (A : Fin n → Fin n → Iv K) (b : Fin n → Iv K) (hA : ∀ i j, Ordinary (A i j))
    (hb : ∀ i, Ordinary (b i)) (A' : Fin n → Fin n → K) (hA' : InMat A' A) (b' : Fin n → K) (hb' : InVec b' b)
    (x : Fin n → K) (hx : ∀ i, apply A' x i = b' i) (i : Fin n) :
    ∑ j, compmat A i j * |x j| ≤ (b i).mag := by
  have h1 : ∀ j, compmat A i j * |x j| ≤ (if i = j then 2 * |A' i j * x j| else 0) - |A' i j * x j| := by
    intro j
    have h2 := (C20_characteristics (A i j) (hA i j)).1 _ (hA' i j)
    have h3 := abs_nonneg (x j)
    rw [compmat]
    split_ifs
    · rw [abs_mul]; nlinarith [h2.1]
    · rw [abs_mul]; nlinarith [h2.2]
  have h4 := (C20_characteristics (b i) (hb i)).1 _ (hb' i)
  refine (Finset.sum_le_sum fun j _ => h1 j).trans ?_
  rw [Finset.sum_sub_distrib, Finset.sum_ite_eq, if_pos (Finset.mem_univ i)]
  have h5 : ∑ j, |A' i j * x j| = |A' i i * x i| + ∑ j ∈ Finset.univ.erase i, |A' i j * x j| :=
    (Finset.add_sum_erase _ _ (Finset.mem_univ i)).symm
  have h6 : apply A' x i = A' i i * x i + ∑ j ∈ Finset.univ.erase i, A' i j * x j :=
    (Finset.add_sum_erase _ (fun j => A' i j * x j) (Finset.mem_univ i)).symm
  have h7 := Finset.abs_sum_le_sum_abs (fun j => A' i j * x j) (Finset.univ.erase i)
  have h8 : |A' i i * x i| ≤ |b' i| + |∑ j ∈ Finset.univ.erase i, A' i j * x j| := by
    rw [hx i] at h6
    have : A' i i * x i = b' i - ∑ j ∈ Finset.univ.erase i, A' i j * x j := by linarith
    rw [this]
    exact abs_sub _ _
  linarith [h4.2]

/-- The diagonal of the inverse of an inverse nonnegative comparison matrix. -/
theorem diag_pos {n : ℕ} (A : Fin n → Fin n → Iv K) (hA : ∀ i j, Ordinary (A i j)) (B : Fin n → Fin n → K)
    (hB : IsInverse (compmat A) B) (h0 : ∀ i j, 0 ≤ B i j) (i : Fin n) :
    0 < B i i ∧ 1 ≤ compmat A i i * B i i := by
  have mag0 : ∀ i j, 0 ≤ (A i j).mag := fun i j => by
    have := (C20_characteristics (A i j) (hA i j)).1 (A i j).a ⟨le_refl _, (hA i j).2⟩
    exact (abs_nonneg _).trans this.2
  have h1 : 1 ≤ compmat A i i * B i i := by
    have h2 := hB i i
    rw [if_pos rfl, ← Finset.add_sum_erase _ _ (Finset.mem_univ i)] at h2
    have : ∑ l ∈ Finset.univ.erase i, compmat A i l * B l i ≤ 0 := by
      refine Finset.sum_nonpos fun l hl => ?_
      have hne : i ≠ l := (Finset.ne_of_mem_erase hl).symm
      rw [compmat, if_neg hne]
      nlinarith [mag0 i l, h0 l i]
    linarith
  refine ⟨lt_of_le_of_ne (h0 i i) fun e => ?_, h1⟩
  rw [← e, mul_zero] at h1
  linarith [zero_lt_one (α := K)]

/-- The weights `w` vanish when the inverse is exact. -/
theorem hbr_w_zero {n : ℕ} (M B : Fin n → Fin n → K) (hB : IsInverse M B) (u : Fin n → K) (j : Fin n) :
    maxOf (List.ofFn fun i => -(∑ l, M i l * B l j - if i = j then 1 else 0) / u i) = 0 := by
  refine maxOf_zero _ fun x hx => ?_
  obtain ⟨i, rfl⟩ := List.mem_ofFn.mp hx
  rw [hB i j]
  simp

/-- One component of the final formula, for a solution of the preconditioned system. -/
theorem hbr_component (R : Rnd K) {n : ℕ} (A : Fin n → Fin n → Iv K) (b : Fin n → Iv K)
    (hA : ∀ i j, Ordinary (A i j)) (hb : ∀ i, Ordinary (b i)) (B : Fin n → Fin n → K)
    (hB : IsInverse (compmat A) B) (h0 : ∀ i j, 0 ≤ B i j) (x : Fin n → K) (hx : United A b x) (i : Fin n) (Z : Iv K)
    (h : ((b i).add R (mkSym ((∑ j, B i j * (b j).mag) / B i i - (b i).mag))).div R
      ((A i i).add R (mkSym (compmat A i i + -1 / B i i))) = .ok Z) : x i ∈ Z ∧ Ordinary Z := by
  obtain ⟨A', hA', b', hb', he⟩ := hx
  have hbd := compmat_bound A b hA hb A' hA' b' hb' x he
  obtain ⟨d0, d1⟩ := diag_pos A hA B hB h0 i
  set M := compmat A with hM
  set z : Fin n → K := fun i => ∑ j, M i j * |x j| with hz
  -- |x| = B z
  have hy : |x i| = ∑ j, B i j * z j := by
    have : ∑ j, B i j * z j = ∑ l, (∑ j, B i j * M j l) * |x l| := by
      simp only [hz, Finset.mul_sum, Finset.sum_mul]
      rw [Finset.sum_comm]
      exact Finset.sum_congr rfl fun _ _ => Finset.sum_congr rfl fun _ _ => by ring
    rw [this]
    simp only [hB.left]
    simp
  -- u' - |x| ≥ B_ii (mag b_i - z_i)
  have h1 : B i i * ((b i).mag - z i) ≤ ∑ j, B i j * (b j).mag - |x i| := by
    rw [hy, ← Finset.sum_sub_distrib]
    have : ∀ j, 0 ≤ B i j * (b j).mag - B i j * z j := fun j => by
      rw [← mul_sub]; exact mul_nonneg (h0 i j) (sub_nonneg.mpr (hbd j))
    have := Finset.single_le_sum (f := fun j => B i j * (b j).mag - B i j * z j) (fun j _ => this j)
      (Finset.mem_univ i)
    rw [mul_sub]
    exact this
  -- the off-diagonal sum
  have h2 : z i = M i i * |x i| - ∑ j ∈ Finset.univ.erase i, (A i j).mag * |x j| := by
    have : z i = M i i * |x i| + ∑ j ∈ Finset.univ.erase i, M i j * |x j| :=
      (Finset.add_sum_erase _ (fun j => M i j * |x j|) (Finset.mem_univ i)).symm
    rw [this, sub_eq_add_neg, ← Finset.sum_neg_distrib]
    congr 1
    refine Finset.sum_congr rfl fun j hj => ?_
    rw [hM, compmat, if_neg (Finset.ne_of_mem_erase hj).symm, neg_mul]
  set e : K := ∑ j ∈ Finset.univ.erase i, A' i j * x j with hedef
  have h3 : |e| ≤ ∑ j ∈ Finset.univ.erase i, (A i j).mag * |x j| := by
    refine (Finset.abs_sum_le_sum_abs _ _).trans (Finset.sum_le_sum fun j _ => ?_)
    rw [abs_mul]
    exact mul_le_mul_of_nonneg_right ((C20_characteristics (A i j) (hA i j)).1 _ (hA' i j)).2 (abs_nonneg _)
  have h4 : A' i i * x i + e = b' i := by
    rw [← he i]
    exact Finset.add_sum_erase _ (fun j => A' i j * x j) (Finset.mem_univ i)
  set β : K := (∑ j, B i j * (b j).mag) / B i i - (b i).mag with hβ
  set α : K := M i i + -1 / B i i with hα
  have eα : α = (M i i * B i i - 1) / B i i := by rw [hα]; field_simp; ring
  have α0 : 0 ≤ α := by rw [eα]; exact div_nonneg (by linarith) d0.le
  have magb : ∀ j, 0 ≤ (b j).mag := fun j =>
    (abs_nonneg _).trans ((C20_characteristics (b j) (hb j)).1 (b j).a ⟨le_refl _, (hb j).2⟩).2
  have β0 : 0 ≤ β := by
    rw [hβ, sub_nonneg, le_div_iff₀ d0]
    have := Finset.single_le_sum (f := fun j => B i j * (b j).mag) (fun j _ => mul_nonneg (h0 i j) (magb j))
      (Finset.mem_univ i)
    linarith [this]
  have h5 : |e| ≤ β + α * |x i| := by
    have h6 : |x i| / B i i + ((b i).mag - z i) ≤ (∑ j, B i j * (b j).mag) / B i i := by
      rw [le_div_iff₀ d0, add_mul, div_mul_cancel₀ _ d0.ne']
      linarith
    have h7 : α * |x i| = M i i * |x i| - |x i| / B i i := by rw [hα]; ring
    rw [h7, hβ]
    linarith
  obtain ⟨δ, hδ1, hδ2⟩ := split_error e (x i) α β α0 β0 h5
  obtain ⟨m1, o1⟩ := mem_mkSym β (δ * x i - e) hδ2
  obtain ⟨m2, o2⟩ := mem_mkSym α δ hδ1
  refine div_point R _ _ Z (C01_add_sub_ordinary R _ _ (hb i) o1).1 (C01_add_sub_ordinary R _ _ (hA i i) o2).1 h
    (b' i + (δ * x i - e)) (A' i i + δ) (x i) ?_ ?_ ?_
  · exact C01_add_encloses R _ _ _ ⟨_, hb' i, _, m1, rfl⟩
  · exact C01_add_encloses R _ _ _ ⟨_, hA' i i, _, m2, rfl⟩
  · rw [← h4]; ring

/-- The full property C44: with an exact inversion routine, a returned box contains every solution.  (In
particular, a matrix which is not an H-matrix must be rejected, as its solution set is unbounded.) -/
def C44_statement (R : Rnd K) : Prop :=
  ∀ (n : ℕ) (inv : (Fin n → Fin n → K) → Except Err (Fin n → Fin n → K)), InvExact inv →
    ∀ (A : Fin n → Fin n → Iv K) (b X : Fin n → Iv K), (∀ i j, Ordinary (A i j)) → (∀ i, Ordinary (b i)) →
      hbr R inv A b = .ok X → ∀ x, United A b x → InVec x X

/-- C44 (any size, any outward rounding of the interval operations, exact matrix inverses): if the comparison matrix
of the preconditioned matrix is inverse nonnegative, the box returned by `HBR(A, b)` contains every solution.
Missing from `C44_statement`: matrices which are not H-matrices. -/
theorem C44_hbr_partial (R : Rnd K) {n : ℕ} (inv : (Fin n → Fin n → K) → Except Err (Fin n → Fin n → K))
    (hinv : InvExact inv) (A : Fin n → Fin n → Iv K) (b X : Fin n → Iv K) (hA : ∀ i j, Ordinary (A i j))
    (hb : ∀ i, Ordinary (b i))
    (hH : ∀ C, inv (fun i j => (A i j).mid R) = .ok C → InvNonneg (compmat (preA R C A)))
    (h : hbr R inv A b = .ok X) (x : Fin n → K) (hx : United A b x) : InVec x X ∧ ∀ i, Ordinary (X i) := by
  unfold hbr at h
  split at h
  · cases h
  · rename_i C hC
    dsimp only at h
    split at h
    · cases h
    · rename_i B hB
      have hI := hinv _ _ hB
      have hN := hH C hC B hI
      obtain ⟨hU, hA1, hb1⟩ := precond_solution R (.point C) A b (fun D hD => by cases hD) hA hb x hx
      split_ifs at h
      simp only [hbr_w_zero _ _ hI, mul_zero, Finset.sum_const_zero, add_zero, zero_sub, neg_neg] at h
      have key := fun i => hbr_component R _ _ hA1 hb1 B hI hN x hU i (X i) (allOk_spec _ _ h i)
      exact ⟨fun i => (key i).1, fun i => (key i).2⟩

/-- C44 (no false rejection, exact arithmetic): if the inversion routine succeeds on the midpoint and on the comparison
matrix, and the latter is inverse nonnegative, `HBR` returns a box. -/
theorem C44_hbr_returns {n : ℕ} (hn : 0 < n) (inv : (Fin n → Fin n → K) → Except Err (Fin n → Fin n → K))
    (hinv : InvExact inv) (A : Fin n → Fin n → Iv K) (b : Fin n → Iv K) (hA : ∀ i j, Ordinary (A i j))
    (hb : ∀ i, Ordinary (b i)) (C B : Fin n → Fin n → K)
    (hC : inv (fun i j => (A i j).mid Rnd.exact) = .ok C)
    (hB : inv (compmat (preA Rnd.exact C A)) = .ok B)
    (hH : InvNonneg (compmat (preA Rnd.exact C A))) : ∃ X, hbr Rnd.exact inv A b = .ok X := by
  obtain ⟨hA1, hb1⟩ := precond_ordinary Rnd.exact C A b hA hb
  have hI := hinv _ _ hB
  have hN := hH B hI
  have hd := diag_pos _ hA1 B hI hN
  have hu : ∀ i, ∑ j, compmat (preA Rnd.exact C A) i j * |∑ l, B j l| = 1 := by
    intro i
    have : ∀ j, |∑ l, B j l| = ∑ l, B j l := fun j => abs_of_nonneg (Finset.sum_nonneg fun l _ => hN j l)
    simp only [this, Finset.mul_sum]
    rw [Finset.sum_comm]
    simp only [hI i]
    simp
  unfold hbr
  rw [hC]
  dsimp only
  rw [show (Precond.point C).mulMat Rnd.exact A = preA Rnd.exact C A from rfl, hB]
  dsimp only
  rw [if_pos, if_neg]
  · simp only [hbr_w_zero _ _ hI, mul_zero, Finset.sum_const_zero, add_zero, zero_sub, neg_neg]
    refine allOk_ok _ fun i => ?_
    obtain ⟨d0, d1⟩ := hd i
    set M := compmat (preA Rnd.exact C A) with hM
    have eα : M i i + -1 / B i i = (M i i * B i i - 1) / B i i := by field_simp; ring
    have α0 : 0 ≤ M i i + -1 / B i i := by rw [eα]; exact div_nonneg (by linarith) d0.le
    have α1 : M i i + -1 / B i i < M i i := by
      have : 0 < 1 / B i i := by positivity
      rw [neg_div]; linarith
    obtain ⟨_, o2⟩ := mem_mkSym (M i i + -1 / B i i) 0 (by simpa using α0)
    obtain ⟨_, hmul⟩ := (C20_characteristics _ (hb1 i)).1 _ ⟨le_refl _, (hb1 i).2⟩
    have o1 : ∀ t : K, Ordinary (mkSym t) := fun t => by
      unfold mkSym; split_ifs with h
      · exact ⟨rfl, h.le⟩
      · exact ⟨rfl, not_lt.mp h⟩
    obtain ⟨Z, hZ, _⟩ := ((C03_div_error_iff Rnd.exact _ _
      (C01_add_sub_ordinary Rnd.exact _ _ (hb1 i) (o1 ((∑ j, B i j * ((Precond.point C).mulVec Rnd.exact b j).mag) /
        B i i - ((Precond.point C).mulVec Rnd.exact b i).mag))).1
      (C01_add_sub_ordinary Rnd.exact _ _ (hA1 i i) (o1 (M i i + -1 / B i i))).1).2).mpr (by
        intro hz
        have h3 : M i i = (preA Rnd.exact C A i i).mig := by rw [hM, compmat, if_pos rfl]
        rw [mkSym, if_neg (by linarith)] at hz
        rw [Iv.mem_def] at hz
        simp only [Iv.add, (hA1 i i).1, Rnd.exact_dn, Rnd.exact_up, id] at hz
        have ho := hA1 i i
        have hc := (C20_characteristics _ ho).1
        have hm : 0 < M i i := by
          by_contra hcon
          push Not at hcon
          nlinarith
        have h0 : ¬ (0 : K) ∈ preA Rnd.exact C A i i := fun h0 => by
          have := (hc 0 h0).1
          rw [abs_zero] at this
          linarith
        have ha := (hc _ ⟨le_refl _, ho.2⟩).1
        have hb := (hc _ ⟨ho.2, le_refl _⟩).1
        rcases lt_or_ge 0 (preA Rnd.exact C A i i).a with h4 | h4
        · rw [abs_of_pos h4] at ha
          linarith [hz.1]
        · have h5 : (preA Rnd.exact C A i i).b < 0 := by
            by_contra h6
            exact h0 ⟨h4, not_lt.mp h6⟩
          rw [abs_of_neg h5] at hb
          linarith [hz.2])
    exact ⟨Z, hZ⟩
  · simp only [hbr_w_zero _ _ hI, mul_zero, Finset.sum_const_zero, add_zero, zero_sub, neg_neg, List.any_eq_true,
      decide_eq_true_eq, not_exists, not_and, or_self, not_or]
    intro i _
    refine ⟨?_, (hd i).1.ne'⟩
    rw [hu i]; exact one_ne_zero
  · simp only [List.any_eq_true, decide_eq_true_eq]
    exact ⟨⟨0, hn⟩, List.mem_finRange _, by rw [hu]; exact one_pos⟩

/-! ### Counterexamples -/

/-- A matrix `I + [-Δ, Δ]` that is not an H-matrix, but passes the test `(u > 0).any()`. -/
def hbrBadA : Fin 4 → Fin 4 → Iv ℚ := fun i j =>
  let d : ℚ := (![![0, 0, 1, 2], ![0, 0, 1, 3], ![3, 0, 0, 0], ![0, 2, 0, 0]] : Fin 4 → Fin 4 → ℚ) i j
  let e : ℚ := if i = j then 1 else 0
  ⟨.classical, e - d, e + d⟩
/-- Its right-hand side. -/
def hbrBadb : Fin 4 → Iv ℚ := fun i => let e : ℚ := if i = 0 then 1 else 0; ⟨.classical, e, e⟩
/-- The comparison matrix `I - Δ`. -/
def hbrBadM : Fin 4 → Fin 4 → ℚ := ![![1, 0, -1, -2], ![0, 1, -1, -3], ![-3, 0, 1, 0], ![0, -2, 0, 1]]
/-- Its inverse. -/
def hbrBadB : Fin 4 → Fin 4 → ℚ :=
  ![![5/2, -2, 1/2, -1], ![-3/2, 1, -1/2, 0], ![15/2, -6, 5/2, -3], ![-3, 2, -1, 1]]
/-- Exact inverses of the two matrices the run needs. -/
def hbrBadInv : (Fin 4 → Fin 4 → ℚ) → Except Err (Fin 4 → Fin 4 → ℚ) := fun M =>
  if M = fun i j => if i = j then 1 else 0 then .ok fun i j => if i = j then 1 else 0
  else if M = hbrBadM then .ok hbrBadB else .error .linAlgError
/-- The returned endpoints. -/
def hbrBadRun (i : Fin 4) : Option (ℚ × ℚ) :=
  match hbr Rnd.exact hbrBadInv hbrBadA hbrBadb with
  | .ok X => some ((X i).a, (X i).b)
  | .error _ => none

theorem hbrBadInv_exact : InvExact hbrBadInv := by
  intro M B h
  unfold hbrBadInv at h
  split_ifs at h with h1 h2
  · cases h
    subst h1
    unfold IsInverse
    decide +kernel
  · cases h
    subst h2
    unfold IsInverse
    decide +kernel

/-- C44 is false of the code: the test `(u > 0).any()` accepts a matrix which is not an H-matrix.  The system has the
solution `(1, 3, -3, 0)`, the returned second component is `[-3/2, 3/2]`.  (The test should be `all`.) -/
theorem C44_hbr_false : ¬ C44_statement (Rnd.exact : Rnd ℚ) := by
  intro h
  have h1 : hbrBadRun 1 = some (-3/2, 3/2) := by decide +kernel
  unfold hbrBadRun at h1
  split at h1
  · rename_i X hX
    simp only [Option.some.injEq, Prod.mk.injEq] at h1
    have := h 4 hbrBadInv hbrBadInv_exact hbrBadA hbrBadb X (fun i j => ⟨rfl, by revert i j; decide +kernel⟩)
      (fun i => ⟨rfl, le_refl _⟩) hX ![1, 3, -3, 0]
      ⟨![![1, 0, 0, 2], ![0, 1, 1, -3], ![3, 0, 1, 0], ![0, 0, 0, 1]],
        fun i j => by rw [Iv.mem_def]; revert i j; decide +kernel,
        ![1, 0, 0, 0], fun i => by rw [Iv.mem_def]; revert i; decide +kernel,
        fun i => by unfold apply; revert i; decide +kernel⟩ 1
    rw [Iv.mem_def, h1.1, h1.2] at this
    have h3 : (![1, 3, -3, 0] : Fin 4 → ℚ) 1 = 3 := rfl
    rw [h3] at this
    norm_num at this
  · cases h1

/-- A small H-matrix `I + [-1/2, 1/2]` off the diagonal, -/
def hbrA : Fin 2 → Fin 2 → Iv ℚ :=
  ![![⟨.classical, 1, 1⟩, ⟨.classical, -1/2, 1/2⟩], ![⟨.classical, -1/2, 1/2⟩, ⟨.classical, 1, 1⟩]]
/-- a right-hand side, -/
def hbrb : Fin 2 → Iv ℚ := ![⟨.classical, 1, 1⟩, ⟨.classical, 2, 2⟩]
/-- the identity matrix, -/
def hbrI : Fin 2 → Fin 2 → ℚ := ![![1, 0], ![0, 1]]
/-- the comparison matrix, -/
def hbrM : Fin 2 → Fin 2 → ℚ := ![![1, -1/2], ![-1/2, 1]]
/-- its inverse with the first column multiplied by `1 + δ`, -/
def hbrB (δ : ℚ) : Fin 2 → Fin 2 → ℚ := ![![4/3 * (1 + δ), 2/3], ![2/3 * (1 + δ), 4/3]]
/-- an inversion routine that knows these two matrices, -/
def hbrInv (δ : ℚ) : (Fin 2 → Fin 2 → ℚ) → Except Err (Fin 2 → Fin 2 → ℚ) := fun M =>
  if M = hbrI then .ok hbrI else if M = hbrM then .ok (hbrB δ) else .error .linAlgError
/-- and the returned endpoints. -/
def hbrRun (δ : ℚ) (i : Fin 2) : Option (ℚ × ℚ) :=
  match hbr Rnd.exact (hbrInv δ) hbrA hbrb with
  | .ok X => some ((X i).a, (X i).b)
  | .error _ => none

theorem hbrInv_exact : InvExact (hbrInv 0) := by
  intro M B h
  unfold hbrInv at h
  split_ifs at h with h1 h2
  · cases h
    subst h1
    unfold IsInverse
    decide +kernel
  · cases h
    subst h2
    unfold IsInverse
    decide +kernel

/-- The hypotheses of `C44_hbr_partial` and `C44_hbr_returns` hold for this system; the box is `[0, 8/3] x [6/5, 10/3]`. -/
example : InvExact (hbrInv 0) ∧ hbrInv 0 (fun i j => (hbrA i j).mid Rnd.exact) = .ok hbrI ∧
    hbrInv 0 (compmat (preA Rnd.exact hbrI hbrA)) = .ok (hbrB 0) ∧ InvNonneg (compmat (preA Rnd.exact hbrI hbrA)) ∧
    hbrRun 0 0 = some (0, 8/3) ∧ hbrRun 0 1 = some (6/5, 10/3) := by
  have e1 : (fun i j => (hbrA i j).mid Rnd.exact) = hbrI := by decide +kernel
  have e2 : compmat (preA Rnd.exact hbrI hbrA) = hbrM := by decide +kernel
  have e3 : hbrM ≠ hbrI := by decide +kernel
  have e4 : IsInverse hbrM (hbrB 0) := hbrInv_exact _ _ (by rw [hbrInv, if_neg e3, if_pos rfl])
  refine ⟨hbrInv_exact, by rw [e1, hbrInv, if_pos rfl], by rw [e2, hbrInv, if_neg e3, if_pos rfl], ?_,
    by decide +kernel, by decide +kernel⟩
  rw [e2]
  intro B hB i j
  have : B i j = hbrB 0 i j := by
    have h1 : ∑ l, (∑ k, hbrB 0 i k * hbrM k l) * B l j = B i j := by
      simp only [e4.left i]
      simp
    have h2 : ∑ l, (∑ k, hbrB 0 i k * hbrM k l) * B l j = hbrB 0 i j := by
      have : ∑ l, (∑ k, hbrB 0 i k * hbrM k l) * B l j = ∑ k, hbrB 0 i k * ∑ l, hbrM k l * B l j := by
        simp only [Finset.mul_sum, Finset.sum_mul]
        rw [Finset.sum_comm]
        exact Finset.sum_congr rfl fun _ _ => Finset.sum_congr rfl fun _ _ => by ring
      rw [this]
      simp only [hB _ j]
      simp
    rw [← h1, h2]
  rw [this]
  clear this
  revert i j
  decide +kernel

/-- `HBR` is not rigorous when the inverse is only computed approximately, as `np.linalg.inv` does: with an inverse
whose residual is at most `10^-15` in every entry, the solution `(0, 2)` of an H-matrix system is lost (the lower
bound returned for the first component is positive). -/
theorem C44_inexact_inverse_false :
    (∀ M B, hbrInv (1 / 10 ^ 15) M = .ok B → IsApproxInverse (1 / 10 ^ 15) M B) ∧
    United hbrA hbrb ![0, 2] ∧ ∃ l u : ℚ, hbrRun (1 / 10 ^ 15) 0 = some (l, u) ∧ 0 < l := by
  refine ⟨?_, ⟨![![1, 1/2], ![0, 1]], fun i j => by rw [Iv.mem_def]; revert i j; decide +kernel,
    ![1, 2], fun i => by rw [Iv.mem_def]; revert i; decide +kernel,
    fun i => by unfold apply; revert i; decide +kernel⟩, ?_⟩
  · intro M B h
    unfold hbrInv at h
    split_ifs at h with h1 h2
    · cases h
      subst h1
      unfold IsApproxInverse
      decide +kernel
    · cases h
      subst h2
      unfold IsApproxInverse
      decide +kernel
  · have : ((hbrRun (1 / 10 ^ 15) 0).any fun p => decide (0 < p.1)) = true := by decide +kernel
    cases h : hbrRun (1 / 10 ^ 15) 0 with
    | none => rw [h] at this; cases this
    | some p =>
      rw [h] at this
      exact ⟨p.1, p.2, rfl, by simpa using this⟩

/-- An interval matrix with midpoint `I`, whose comparison matrix has row sums of very different inverses, -/
def hbrA2 : Fin 2 → Fin 2 → Iv ℚ :=
  ![![⟨.classical, 1/2, 3/2⟩, ⟨.classical, -1/2, 1/2⟩], ![⟨.classical, 0, 0⟩, ⟨.classical, 1, 1⟩]]
/-- a right-hand side, -/
def hbrb2 : Fin 2 → Iv ℚ := ![⟨.classical, 0, 0⟩, ⟨.classical, 1, 1⟩]
/-- the comparison matrix, -/
def hbrM2 : Fin 2 → Fin 2 → ℚ := ![![1/2, -1/2], ![0, 1]]
/-- a matrix whose product with it is `I` minus `δ` in the second column, -/
def hbrB2 (δ : ℚ) : Fin 2 → Fin 2 → ℚ := ![![2, 1 - 3 * δ], ![0, 1 - δ]]
/-- an inversion routine that knows these two matrices, -/
def hbrInv2 (δ : ℚ) : (Fin 2 → Fin 2 → ℚ) → Except Err (Fin 2 → Fin 2 → ℚ) := fun M =>
  if M = hbrI then .ok hbrI else if M = hbrM2 then .ok (hbrB2 δ) else .error .linAlgError
/-- and the returned endpoints. -/
def hbrRun2 (δ : ℚ) (i : Fin 2) : Option (ℚ × ℚ) :=
  match hbr Rnd.exact (hbrInv2 δ) hbrA2 hbrb2 with
  | .ok X => some ((X i).a, (X i).b)
  | .error _ => none

/-- The correction `B + v @ w` of line 49 is one number added to every entry, not the matrix `v wᵀ` of the method:
with an inverse whose residual is at most `10^-15`, the solution `(1, 1)` of an H-matrix system is lost (the upper
bound returned for the first component is below one).  Here the entries of the residual have one sign, and
`B + v wᵀ` would be the exact inverse, and `dlow` is exact for this component. -/
theorem C44_scalar_correction_false :
    (∀ M B, hbrInv2 (1 / 10 ^ 15) M = .ok B → IsApproxInverse (1 / 10 ^ 15) M B) ∧
    United hbrA2 hbrb2 ![1, 1] ∧ ∃ l u : ℚ, hbrRun2 (1 / 10 ^ 15) 0 = some (l, u) ∧ u < 1 := by
  refine ⟨?_, ⟨![![1/2, -1/2], ![0, 1]], fun i j => by rw [Iv.mem_def]; revert i j; decide +kernel,
    ![0, 1], fun i => by rw [Iv.mem_def]; revert i; decide +kernel,
    fun i => by unfold apply; revert i; decide +kernel⟩, ?_⟩
  · intro M B h
    unfold hbrInv2 at h
    split_ifs at h with h1 h2
    · cases h
      subst h1
      unfold IsApproxInverse
      decide +kernel
    · cases h
      subst h2
      unfold IsApproxInverse
      decide +kernel
  · have : ((hbrRun2 (1 / 10 ^ 15) 0).any fun p => decide (p.2 < 1)) = true := by decide +kernel
    cases h : hbrRun2 (1 / 10 ^ 15) 0 with
    | none => rw [h] at this; cases this
    | some p =>
      rw [h] at this
      exact ⟨p.1, p.2, rfl, by simpa using this⟩

/-- With the exact inverse the same system is enclosed: the box is `[-1, 1] x [1, 1]`. -/
example : hbrRun2 0 0 = some (-1, 1) ∧ hbrRun2 0 1 = some (1, 1) := by decide +kernel

theorem compmat_signs {n : ℕ} (A : Fin n → Fin n → Iv K) : (∀ i, 0 ≤ compmat A i i) ∧ ∀ i j, i ≠ j → compmat A i j ≤ 0 := by
  constructor
  · intro i
    unfold compmat Iv.mig
    rw [if_pos rfl]
    split_ifs
    · exact le_refl _
    · exact le_min (abs_nonneg _) (abs_nonneg _)
  · intro i j h
    unfold compmat Iv.mag
    rw [if_neg h, neg_nonpos]
    exact (abs_nonneg _).trans (le_max_left _ _)

/-- For at most two unknowns, the test `(u > 0).any()` accepts H-matrices only. -/
theorem two_invNonneg {n : ℕ} (hn : n ≤ 2) (M B : Fin n → Fin n → K) (hd : ∀ i, 0 ≤ M i i) (ho : ∀ i j, i ≠ j → M i j ≤ 0)
    (hB : IsInverse M B) (i0 : Fin n) (hu : 0 < ∑ j, M i0 j * |∑ l, B j l|) (i j : Fin n) : 0 ≤ B i j := by
  obtain rfl | rfl | rfl : n = 0 ∨ n = 1 ∨ n = 2 := by omega
  · exact i.elim0
  · have h := hB 0 0
    have h0 := hd 0
    simp only [Finset.univ_unique, Fin.default_eq_zero, Fin.isValue, Finset.sum_singleton, if_true] at h
    rw [Subsingleton.elim i 0, Subsingleton.elim j 0]
    by_contra hc
    have := mul_nonpos_of_nonneg_of_nonpos h0 (not_le.1 hc).le
    linarith
  · have l := fun i j => hB.left i j
    simp only [Fin.sum_univ_two] at l hu
    have e00 := l 0 0
    have e01 := l 0 1
    have e10 := l 1 0
    have e11 := l 1 1
    norm_num at e00 e01 e10 e11
    have a0 := hd 0
    have d0 := hd 1
    have b0 := ho 0 1 (by decide)
    have c0 := ho 1 0 (by decide)
    have q00 : B 0 0 * (M 0 0 * M 1 1 - M 0 1 * M 1 0) = M 1 1 := by linear_combination M 1 1 * e00 - M 1 0 * e01
    have q01 : B 0 1 * (M 0 0 * M 1 1 - M 0 1 * M 1 0) = -M 0 1 := by linear_combination M 0 0 * e01 - M 0 1 * e00
    have q10 : B 1 0 * (M 0 0 * M 1 1 - M 0 1 * M 1 0) = -M 1 0 := by linear_combination M 1 1 * e10 - M 1 0 * e11
    have q11 : B 1 1 * (M 0 0 * M 1 1 - M 0 1 * M 1 0) = M 0 0 := by linear_combination M 0 0 * e11 - M 0 1 * e10
    rcases lt_trichotomy 0 (M 0 0 * M 1 1 - M 0 1 * M 1 0) with hdet | hdet | hdet
    · have key : ∀ t s : K, t * (M 0 0 * M 1 1 - M 0 1 * M 1 0) = s → 0 ≤ s → 0 ≤ t := fun t s h1 h2 =>
        nonneg_of_mul_nonneg_left (h1 ▸ h2) hdet
      fin_cases i <;> fin_cases j
      · exact key _ _ q00 d0
      · exact key _ _ q01 (by linarith)
      · exact key _ _ q10 (by linarith)
      · exact key _ _ q11 a0
    · exfalso
      rw [← hdet, mul_zero] at q00 q01 q10 q11
      rw [← q11] at e00
      have : M 1 0 = 0 := by linarith
      rw [this] at e00
      simp at e00
    · exfalso
      have key : ∀ t s : K, t * (M 0 0 * M 1 1 - M 0 1 * M 1 0) = s → 0 ≤ s → t ≤ 0 := fun t s h1 h2 => by
        by_contra hc
        have := mul_neg_of_pos_of_neg (not_le.1 hc) hdet
        linarith
      have k00 := key _ _ q00 d0
      have k01 := key _ _ q01 (by linarith)
      have k10 := key _ _ q10 (by linarith)
      have k11 := key _ _ q11 a0
      rw [abs_of_nonpos (by linarith), abs_of_nonpos (by linarith)] at hu
      have r := hB i0
      simp only [Fin.sum_univ_two] at r
      have r0 := r 0
      have r1 := r 1
      have : (if i0 = 0 then (1 : K) else 0) + (if i0 = 1 then 1 else 0) = 1 := by
        fin_cases i0 <;> simp
      nlinarith

/-- C44 (partial): for at most two unknowns a box returned by `HBR` contains every solution, for every rounding and
every exact inversion routine; no condition on the matrix is needed, other matrices are rejected.
Missing from `C44_statement`: three and more unknowns (false for four, `C44_hbr_false`). -/
theorem C44_hbr_two_partial (R : Rnd K) {n : ℕ} (hn : n ≤ 2) (inv : (Fin n → Fin n → K) → Except Err (Fin n → Fin n → K))
    (hinv : InvExact inv) (A : Fin n → Fin n → Iv K) (b X : Fin n → Iv K) (hA : ∀ i j, Ordinary (A i j))
    (hb : ∀ i, Ordinary (b i)) (h : hbr R inv A b = .ok X) (x : Fin n → K) (hx : United A b x) :
    InVec x X ∧ ∀ i, Ordinary (X i) := by
  have hH : ∀ C, inv (fun i j => (A i j).mid R) = .ok C → InvNonneg (compmat (preA R C A)) := by
    intro C hC B' hB' i j
    unfold hbr at h
    rw [hC] at h
    dsimp only at h
    split at h
    · cases h
    rename_i B hB
    have hI := hinv _ _ hB
    have eB : B' = B := by
      funext i j
      have h1 : ∑ l, (∑ k, B i k * compmat (preA R C A) k l) * B' l j = B' i j := by
        have : ∀ l, ∑ k, B i k * compmat (preA R C A) k l = if i = l then 1 else 0 := fun l => hI.left i l
        simp only [this]
        simp
      have h2 : ∑ l, (∑ k, B i k * compmat (preA R C A) k l) * B' l j = B i j := by
        have : ∑ l, (∑ k, B i k * compmat (preA R C A) k l) * B' l j = ∑ k, B i k * ∑ l, compmat (preA R C A) k l * B' l j := by
          simp only [Finset.mul_sum, Finset.sum_mul]
          rw [Finset.sum_comm]
          exact Finset.sum_congr rfl fun _ _ => Finset.sum_congr rfl fun _ _ => by ring
        rw [this]
        simp only [hB' _ j]
        simp
      rw [← h1, h2]
    split_ifs at h with hu
    rw [List.any_eq_true] at hu
    obtain ⟨i0, -, hu⟩ := hu
    rw [eB]
    exact two_invNonneg hn _ B (compmat_signs _).1 (compmat_signs _).2 hI i0 (by simpa using hu) i j
  exact C44_hbr_partial R inv hinv A b X hA hb hH h x hx

/-- The hypotheses of `C44_hbr_two_partial` are satisfiable. -/
example : hbrRun 0 0 = some (0, 8/3) ∧ InvExact (hbrInv 0) := ⟨by decide +kernel, hbrInv_exact⟩

theorem dotNI_eq_dotIN (R : Rnd K) (c : List K) (A : List (Iv K)) : dotNI R c A = dotIN R A c := by
  unfold dotNI dotIN objDot
  cases c with
  | nil => cases A <;> rfl
  | cons x xs =>
    cases A with
    | nil => rfl
    | cons y ys =>
      dsimp only
      rw [List.zipWith_comm]
      rfl

/-- The exact range of an entry of `C @ b`. -/
theorem mulVec_range {n : ℕ} (C : Fin n → Fin n → K) (b : Fin n → Iv K) (hb : ∀ i, Ordinary (b i)) (i : Fin n) :
    IsRange ((Precond.point C).mulVec Rnd.exact b i) (fun s => ∃ b', InVec b' b ∧ s = apply C b' i) := by
  obtain ⟨Z, h1, h2⟩ := C26_matvec_range b (C i) i.pos hb
  have : (Precond.point C).mulVec Rnd.exact b i = Z := by
    simp only [Precond.mulVec, dotNI_eq_dotIN, h1, dotEntry, Option.getD_some]
  rw [this]
  have e : ∀ s, (∃ b', InVec b' b ∧ s = apply C b' i) ↔ ∃ A' : Fin n → K, (∀ j, A' j ∈ b j) ∧ s = ∑ j, A' j * C i j := by
    intro s
    simp only [apply, InVec, mul_comm]
  simp only [e]
  exact h2

/-- An entry of `C @ A` for a point matrix. -/
theorem preA_point {n : ℕ} (C q : Fin n → Fin n → K) (A : Fin n → Fin n → Iv K) (hA : ∀ i j, Ordinary (A i j))
    (hq : ∀ i j, (A i j).a = q i j ∧ (A i j).b = q i j) (i l : Fin n) :
    (preA Rnd.exact C A i l).a = ∑ j, C i j * q j l ∧ (preA Rnd.exact C A i l).b = ∑ j, C i j * q j l := by
  obtain ⟨Z, h1, h2⟩ := C26_matvec_range (fun j => A j l) (C i) i.pos fun j => hA j l
  have : preA Rnd.exact C A i l = Z := by
    simp only [preA, Precond.mulMat, dotNI_eq_dotIN, h1, dotEntry, Option.getD_some]
  rw [this]
  have key : ∀ s, (∃ A' : Fin n → K, (∀ j, A' j ∈ A j l) ∧ s = ∑ j, A' j * C i j) → s = ∑ j, C i j * q j l := by
    rintro s ⟨A', hA', rfl⟩
    refine Finset.sum_congr rfl fun j _ => ?_
    have := Iv.mem_def.1 (hA' j)
    rw [(hq j l).1, (hq j l).2] at this
    rw [le_antisymm this.2 this.1, mul_comm]
  exact ⟨key _ h2.2.1, key _ h2.2.2⟩

/-- C44 (exact arithmetic, exact inverses): for a point matrix every component of the box returned by `HBR` is exactly the range
of that component of the solutions. -/
theorem C44_hbr_point {n : ℕ} (inv : (Fin n → Fin n → K) → Except Err (Fin n → Fin n → K))
    (hinv : InvExact inv) (A : Fin n → Fin n → Iv K) (b X : Fin n → Iv K) (hA : ∀ i j, Ordinary (A i j))
    (hb : ∀ i, Ordinary (b i)) (hp : ∀ i j, (A i j).a = (A i j).b) (h : hbr Rnd.exact inv A b = .ok X) (i : Fin n) :
    IsRange (X i) (fun t => ∃ x, United A b x ∧ t = x i) := by
  have emid : (fun i j => (A i j).mid Rnd.exact) = fun i j => (A i j).a := by
    funext i j
    simp only [Iv.mid, Rnd.exact_nr, id, ← hp i j]
    ring
  have h' := h
  unfold hbr at h
  split at h
  · cases h
  rename_i C hC
  have hCI := hinv _ _ hC
  rw [emid] at hCI
  dsimp only at h
  split at h
  · cases h
  rename_i B hB
  have hI := hinv _ _ hB
  obtain ⟨hA1, hb1⟩ := precond_ordinary Rnd.exact C A b hA hb
  have eA : ∀ i l, (preA Rnd.exact C A i l).a = (if i = l then 1 else 0) ∧ (preA Rnd.exact C A i l).b = if i = l then 1 else 0 := by
    intro i l
    have := preA_point C (fun i j => (A i j).a) A hA (fun i j => ⟨rfl, (hp i j).symm⟩) i l
    rw [hCI.left i l] at this
    exact this
  have eM : compmat (preA Rnd.exact C A) = fun i j => if i = j then 1 else 0 := by
    funext i j
    unfold compmat
    by_cases hij : i = j
    · rw [if_pos hij, if_pos hij]
      have := eA i j
      rw [if_pos hij] at this
      simp [Iv.mig, Iv.containsNum, this.1, this.2]
    · rw [if_neg hij, if_neg hij]
      have := eA i j
      rw [if_neg hij] at this
      simp [Iv.mag, this.1, this.2]
  have eB : B = fun i j => if i = j then 1 else 0 := by
    funext i j
    have := hI i j
    rw [show (Precond.point C).mulMat Rnd.exact A = preA Rnd.exact C A from rfl, eM] at this
    simpa using this
  have hH : ∀ C', inv (fun i j => (A i j).mid Rnd.exact) = .ok C' → InvNonneg (compmat (preA Rnd.exact C' A)) := by
    intro C' hC' B' hB' i j
    rw [hC] at hC'
    cases hC'
    rw [eM] at hB'
    have := hB' i j
    simp at this
    rw [this]
    split_ifs <;> simp
  have henc : Encloses (X i) (fun t => ∃ x, United A b x ∧ t = x i) := by
    rintro t ⟨x, hx, rfl⟩
    exact (C44_hbr_partial Rnd.exact inv hinv A b X hA hb hH h' x hx).1 i
  have hrange := mulVec_range C b hb i
  have hatt : ∀ s, (∃ b', InVec b' b ∧ s = apply C b' i) → ∃ x, United A b x ∧ s = x i := by
    rintro s ⟨b', hb', rfl⟩
    refine ⟨apply C b', ⟨fun i j => (A i j).a, fun i j => Iv.mem_def.2 ⟨le_refl _, (hA i j).2⟩, b', hb', fun k => ?_⟩, rfl⟩
    have : apply (fun i j => (A i j).a) (apply C b') k = ∑ j, (∑ l, (A k l).a * C l j) * b' j := by
      unfold apply
      simp only [Finset.mul_sum, Finset.sum_mul]
      rw [Finset.sum_comm]
      exact Finset.sum_congr rfl fun i _ => Finset.sum_congr rfl fun j _ => by ring
    rw [this]
    simp only [hCI k]
    simp
  split_ifs at h
  simp only [hbr_w_zero _ _ hI, mul_zero, Finset.sum_const_zero, add_zero, zero_sub, neg_neg] at h
  have hX := allOk_spec _ _ h i
  rw [show (Precond.point C).mulMat Rnd.exact A = preA Rnd.exact C A from rfl, eM, eB] at hX
  have hs : mkSym (0 : K) = ⟨.classical, 0, 0⟩ := by simp [mkSym]
  have o0 : Ordinary (⟨.classical, 0, 0⟩ : Iv K) := ⟨rfl, le_refl _⟩
  simp only [if_true, ite_mul, one_mul, zero_mul, Finset.sum_ite_eq, Finset.mem_univ, div_one, sub_self,
    show (1 : K) + -1 = 0 by ring, hs] at hX
  have r := C11_div_range _ _ _ (C01_add_sub_ordinary Rnd.exact _ _ (hb1 i) o0).1
    (C01_add_sub_ordinary Rnd.exact _ _ (hA1 i i) o0).1 hX
  have key : ∀ s, (∃ x ∈ ((Precond.point C).mulVec Rnd.exact b i).add Rnd.exact ⟨.classical, 0, 0⟩,
      ∃ y ∈ (preA Rnd.exact C A i i).add Rnd.exact ⟨.classical, 0, 0⟩, s = x / y) → s ∈ (Precond.point C).mulVec Rnd.exact b i := by
    rintro s ⟨x, hx, y, hy, rfl⟩
    have e1 := (hb1 i).1
    have e2 := (hA1 i i).1
    have e3 := eA i i
    rw [if_pos rfl] at e3
    rw [Iv.mem_def] at hx hy ⊢
    simp only [Iv.add, e1, e2, Rnd.exact_dn, Rnd.exact_up, id, add_zero, e3.1, e3.2] at hx hy
    rw [le_antisymm hy.2 hy.1, div_one]
    exact hx
  have ka := Iv.mem_def.1 (key _ r.2.1)
  have kb := Iv.mem_def.1 (key _ r.2.2)
  have ha := hatt _ hrange.2.1
  have hbb := hatt _ hrange.2.2
  refine ⟨henc, ?_, ?_⟩
  · have : (X i).a = ((Precond.point C).mulVec Rnd.exact b i).a := le_antisymm (Iv.mem_def.1 (henc _ ha)).1 ka.1
    rw [this]; exact ha
  · have : (X i).b = ((Precond.point C).mulVec Rnd.exact b i).b := le_antisymm kb.2 (Iv.mem_def.1 (henc _ hbb)).2
    rw [this]; exact hbb

end IntvalPy
