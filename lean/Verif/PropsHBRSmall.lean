import Verif.PropsHBRHull

/-!
# HBR with at most three unknowns; what an answer of HBR proves about the matrix (C44, C154)

/repo/intvalpy/linear/HBR.py:26-55.
-/

set_option autoImplicit false
set_option linter.unusedSectionVars false

namespace IntvalPy
open Spec

variable {K : Type*} [Field K] [LinearOrder K] [IsStrictOrderedRing K]

/-- If `D + [-|α|, |α|]` (rounded outwards) does not contain zero, `|α| < mig D`. -/
theorem abs_lt_mig_of_sum (R : Rnd K) (D : Iv K) (hD : Ordinary D) (α : K) (h : ¬ (0 : K) ∈ D.add R (mkSym α)) :
    |α| < D.mig := by
  obtain ⟨_, ⟨y, hy, ey⟩, _, _⟩ := C20_characteristics D hD
  by_contra hc
  refine h (C01_add_encloses R _ _ _ ⟨y, hy, -y, ?_, by ring⟩)
  have h1 : |y| ≤ |α| := ey ▸ not_lt.mp hc
  rw [Iv.mem_def, mkSym]
  rw [abs_le] at h1
  split_ifs with hs
  · rw [abs_of_neg (by linarith)] at h1
    exact ⟨by linarith [h1.2], by linarith [h1.1]⟩
  · rw [abs_of_nonneg (by linarith)] at h1
    exact ⟨by linarith [h1.2], by linarith [h1.1]⟩

/-- What holds when `HBR` returns, with exact inverses. -/
theorem hbr_returned (R : Rnd K) {n : ℕ} (inv : (Fin n → Fin n → K) → Except Err (Fin n → Fin n → K))
    (hinv : InvExact inv) (A : Fin n → Fin n → Iv K) (b X : Fin n → Iv K) (hA : ∀ i j, Ordinary (A i j))
    (hb : ∀ i, Ordinary (b i)) (h : hbr R inv A b = .ok X) :
    ∃ C B, inv (fun i j => (A i j).mid R) = .ok C ∧ IsInverse (compmat (preA R C A)) B ∧
      (∃ i, 0 < ∑ j, compmat (preA R C A) i j * |∑ l, B j l|) ∧
      ∀ i, B i i ≠ 0 ∧ |compmat (preA R C A) i i + -1 / B i i| < compmat (preA R C A) i i := by
  unfold hbr at h
  split at h
  · cases h
  rename_i C hC
  dsimp only at h
  split at h
  · cases h
  rename_i B hB
  have ep : (Precond.point C).mulMat R A = preA R C A := rfl
  simp only [ep] at h hB
  have hI := hinv _ _ hB
  obtain ⟨hA1, hb1⟩ := precond_ordinary R C A b hA hb
  split_ifs at h with hu hz
  simp only [hbr_w_zero _ _ hI, mul_zero, Finset.sum_const_zero, add_zero, zero_sub, neg_neg] at h hz
  refine ⟨C, B, hC, hI, ?_, fun i => ⟨?_, ?_⟩⟩
  · rw [List.any_eq_true] at hu
    obtain ⟨i0, -, hu⟩ := hu
    exact ⟨i0, by simpa using hu⟩
  · intro e
    apply hz
    rw [List.any_eq_true]
    exact ⟨i, List.mem_finRange i, by simp [e]⟩
  · have hi := allOk_spec _ _ h i
    have oS : ∀ t : K, Ordinary (mkSym t) := fun t => by
      unfold mkSym; split_ifs with hs
      · exact ⟨rfl, hs.le⟩
      · exact ⟨rfl, not_lt.mp hs⟩
    have hd : compmat (preA R C A) i i = (preA R C A i i).mig := by simp [compmat]
    refine lt_of_lt_of_eq ?_ hd.symm
    refine abs_lt_mig_of_sum R _ (hA1 i i) _ fun h0 => ?_
    rw [((C03_div_error_iff R _ _ (C01_add_sub_ordinary R _ _ (hb1 i) (oS _)).1
      (C01_add_sub_ordinary R _ _ (hA1 i i) (oS _)).1).1).mpr h0] at hi
    cases hi

/-- Three unknowns: if the diagonal of the inverse passes the final divisions, the inverse is nonnegative. -/
theorem three_invNonneg (M B : Fin 3 → Fin 3 → K) (ho : ∀ i j, i ≠ j → M i j ≤ 0) (hB : IsInverse M B)
    (hq : ∀ i, B i i ≠ 0 ∧ |M i i + -1 / B i i| < M i i) (i j : Fin 3) : 0 ≤ B i j := by
  have l := hB.left
  simp only [Fin.sum_univ_three] at l
  have e00 := l 0 0
  have e01 := l 0 1
  have e02 := l 0 2
  have e10 := l 1 0
  have e11 := l 1 1
  have e12 := l 1 2
  have e20 := l 2 0
  have e21 := l 2 1
  have e22 := l 2 2
  norm_num [Fin.ext_iff] at e00 e01 e02 e10 e11 e12 e20 e21 e22
  have o01 := ho 0 1 (by decide)
  have o02 := ho 0 2 (by decide)
  have o10 := ho 1 0 (by decide)
  have o12 := ho 1 2 (by decide)
  have o20 := ho 2 0 (by decide)
  have o21 := ho 2 1 (by decide)
  have pos : ∀ i, 0 < M i i ∧ 0 < B i i ∧ 1 < 2 * (M i i * B i i) := by
    intro i
    obtain ⟨h0, h1⟩ := hq i
    have m0 : 0 < M i i := (abs_nonneg _).trans_lt h1
    rw [abs_lt] at h1
    have i0 : 0 < 1 / B i i := by have : -1 / B i i = -(1 / B i i) := by ring
                                  rw [this] at h1; linarith [h1.2]
    have b0 : 0 < B i i := one_div_pos.mp i0
    refine ⟨m0, b0, ?_⟩
    have h2 : 1 / B i i < 2 * M i i := by have : -1 / B i i = -(1 / B i i) := by ring
                                          rw [this] at h1; linarith [h1.1]
    rw [div_lt_iff₀ b0] at h2
    linarith
  obtain ⟨m0, b0, r0⟩ := pos 0
  obtain ⟨m1, b1, r1⟩ := pos 1
  obtain ⟨m2, b2, r2⟩ := pos 2
  clear hq pos l
  set d : K := M 0 0 * (M 1 1 * M 2 2 - M 1 2 * M 2 1) - M 0 1 * (M 1 0 * M 2 2 - M 1 2 * M 2 0)
    + M 0 2 * (M 1 0 * M 2 1 - M 1 1 * M 2 0) with hd
  have adj : ∀ i, (B i 0 * d = (B i 0 * M 0 0 + B i 1 * M 1 0 + B i 2 * M 2 0) * (M 1 1 * M 2 2 - M 1 2 * M 2 1)
        + (B i 0 * M 0 1 + B i 1 * M 1 1 + B i 2 * M 2 1) * (M 1 2 * M 2 0 - M 1 0 * M 2 2)
        + (B i 0 * M 0 2 + B i 1 * M 1 2 + B i 2 * M 2 2) * (M 1 0 * M 2 1 - M 1 1 * M 2 0)) ∧
      (B i 1 * d = (B i 0 * M 0 0 + B i 1 * M 1 0 + B i 2 * M 2 0) * (M 0 2 * M 2 1 - M 0 1 * M 2 2)
        + (B i 0 * M 0 1 + B i 1 * M 1 1 + B i 2 * M 2 1) * (M 0 0 * M 2 2 - M 0 2 * M 2 0)
        + (B i 0 * M 0 2 + B i 1 * M 1 2 + B i 2 * M 2 2) * (M 0 1 * M 2 0 - M 0 0 * M 2 1)) ∧
      (B i 2 * d = (B i 0 * M 0 0 + B i 1 * M 1 0 + B i 2 * M 2 0) * (M 0 1 * M 1 2 - M 0 2 * M 1 1)
        + (B i 0 * M 0 1 + B i 1 * M 1 1 + B i 2 * M 2 1) * (M 0 2 * M 1 0 - M 0 0 * M 1 2)
        + (B i 0 * M 0 2 + B i 1 * M 1 2 + B i 2 * M 2 2) * (M 0 0 * M 1 1 - M 0 1 * M 1 0)) := fun i =>
    ⟨by rw [hd]; ring, by rw [hd]; ring, by rw [hd]; ring⟩
  obtain ⟨q00, q01, q02⟩ := adj 0
  obtain ⟨q10, q11, q12⟩ := adj 1
  obtain ⟨q20, q21, q22⟩ := adj 2
  rw [e00, e01, e02] at q00 q01 q02
  rw [e10, e11, e12] at q10 q11 q12
  rw [e20, e21, e22] at q20 q21 q22
  have p01 := mul_nonneg_of_nonpos_of_nonpos o01 o10
  have p02 := mul_nonneg_of_nonpos_of_nonpos o02 o20
  have p12 := mul_nonneg_of_nonpos_of_nonpos o12 o21
  have c1 : M 0 1 * M 1 2 * M 2 0 ≤ 0 := mul_nonpos_of_nonneg_of_nonpos (mul_nonneg_of_nonpos_of_nonpos o01 o12) o20
  have c2 : M 0 2 * M 2 1 * M 1 0 ≤ 0 := mul_nonpos_of_nonneg_of_nonpos (mul_nonneg_of_nonpos_of_nonpos o02 o21) o10
  have d0 : 0 < d := by
    by_contra hc
    have hc := not_lt.mp hc
    have s0 : -d ≤ 2 * (M 0 0 * (B 0 0 * -d)) := by
      have := mul_le_mul_of_nonneg_right r0.le (neg_nonneg.mpr hc)
      linarith
    have s1 : -d ≤ 2 * (M 1 1 * (B 1 1 * -d)) := by
      have := mul_le_mul_of_nonneg_right r1.le (neg_nonneg.mpr hc)
      linarith
    have s2 : -d ≤ 2 * (M 2 2 * (B 2 2 * -d)) := by
      have := mul_le_mul_of_nonneg_right r2.le (neg_nonneg.mpr hc)
      linarith
    rw [mul_neg, q00] at s0
    rw [mul_neg, q11] at s1
    rw [mul_neg, q22] at s2
    have mp : 0 < M 0 0 * M 1 1 * M 2 2 := mul_pos (mul_pos m0 m1) m2
    have t0 := mul_nonneg m0.le p12
    have t1 := mul_nonneg m1.le p02
    have t2 := mul_nonneg m2.le p01
    rw [hd] at s0 s1 s2
    linarith
  have key : ∀ t s : K, t * d = s → 0 ≤ s → 0 ≤ t := fun t s h1 h2 => nonneg_of_mul_nonneg_left (h1 ▸ h2) d0
  have n01 : 0 ≤ M 0 2 * M 2 1 - M 0 1 * M 2 2 := by
    have h1 := mul_nonneg_of_nonpos_of_nonpos o02 o21
    have h2 := mul_nonneg m2.le (neg_nonneg.mpr o01)
    linarith
  have n02 : 0 ≤ M 0 1 * M 1 2 - M 0 2 * M 1 1 := by
    have h1 := mul_nonneg_of_nonpos_of_nonpos o01 o12
    have h2 := mul_nonneg m1.le (neg_nonneg.mpr o02)
    linarith
  have n10 : 0 ≤ M 1 2 * M 2 0 - M 1 0 * M 2 2 := by
    have h1 := mul_nonneg_of_nonpos_of_nonpos o12 o20
    have h2 := mul_nonneg m2.le (neg_nonneg.mpr o10)
    linarith
  have n12 : 0 ≤ M 0 2 * M 1 0 - M 0 0 * M 1 2 := by
    have h1 := mul_nonneg_of_nonpos_of_nonpos o10 o02
    have h2 := mul_nonneg m0.le (neg_nonneg.mpr o12)
    linarith
  have n20 : 0 ≤ M 1 0 * M 2 1 - M 1 1 * M 2 0 := by
    have h1 := mul_nonneg_of_nonpos_of_nonpos o21 o10
    have h2 := mul_nonneg m1.le (neg_nonneg.mpr o20)
    linarith
  have n21 : 0 ≤ M 0 1 * M 2 0 - M 0 0 * M 2 1 := by
    have h1 := mul_nonneg_of_nonpos_of_nonpos o20 o01
    have h2 := mul_nonneg m0.le (neg_nonneg.mpr o21)
    linarith
  fin_cases i <;> fin_cases j
  · exact b0.le
  · exact key _ _ q01 (by linarith)
  · exact key _ _ q02 (by linarith)
  · exact key _ _ q10 (by linarith)
  · exact b1.le
  · exact key _ _ q12 (by linarith)
  · exact key _ _ q20 (by linarith)
  · exact key _ _ q21 (by linarith)
  · exact b2.le

/-- With at most three unknowns `HBR` only answers when the comparison matrix is inverse nonnegative. -/
theorem hbr_small {n : ℕ} (R : Rnd K) (hn : n ≤ 3) (inv : (Fin n → Fin n → K) → Except Err (Fin n → Fin n → K))
    (hinv : InvExact inv) (A : Fin n → Fin n → Iv K) (b X : Fin n → Iv K) (hA : ∀ i j, Ordinary (A i j))
    (hb : ∀ i, Ordinary (b i)) (h : hbr R inv A b = .ok X) :
    ∃ C B, inv (fun i j => (A i j).mid R) = .ok C ∧ IsInverse (compmat (preA R C A)) B ∧ ∀ i j, 0 ≤ B i j := by
  obtain ⟨C, B, hC, hB, ⟨i0, hu⟩, hq⟩ := hbr_returned R inv hinv A b X hA hb h
  refine ⟨C, B, hC, hB, ?_⟩
  rcases Nat.lt_or_ge 2 n with h3 | h2
  · obtain rfl : n = 3 := by omega
    exact three_invNonneg _ B (compmat_signs _).2 hB hq
  · exact two_invNonneg h2 _ B (compmat_signs _).1 (compmat_signs _).2 hB i0 hu

theorem isInverse_unique {n : ℕ} {M B B' : Fin n → Fin n → K} (h : IsInverse M B) (h' : IsInverse M B') : B' = B := by
  funext i j
  have h1 : ∑ l, (∑ k, B i k * M k l) * B' l j = B' i j := by
    simp only [h.left]
    simp
  have h2 : ∑ l, (∑ k, B i k * M k l) * B' l j = B i j := by
    have : ∑ l, (∑ k, B i k * M k l) * B' l j = ∑ k, B i k * ∑ l, M k l * B' l j := by
      simp only [Finset.mul_sum, Finset.sum_mul]
      rw [Finset.sum_comm]
      exact Finset.sum_congr rfl fun _ _ => Finset.sum_congr rfl fun _ _ => by ring
    rw [this]
    simp only [h' _ j]
    simp
  rw [← h1, h2]

/-- C44 (partial): for at most three unknowns a box returned by `HBR` contains every solution, for every rounding and every exact
inversion routine; no condition on the matrix is needed.  The test `(u > 0).any()` does not reject every matrix that is not an
H-matrix, but for three unknowns the final division then fails.
Missing from `C44_statement`: four and more unknowns (false for four, `C44_hbr_false`). -/
theorem C44_hbr_three_partial (R : Rnd K) {n : ℕ} (hn : n ≤ 3) (inv : (Fin n → Fin n → K) → Except Err (Fin n → Fin n → K))
    (hinv : InvExact inv) (A : Fin n → Fin n → Iv K) (b X : Fin n → Iv K) (hA : ∀ i j, Ordinary (A i j))
    (hb : ∀ i, Ordinary (b i)) (h : hbr R inv A b = .ok X) (x : Fin n → K) (hx : United A b x) :
    InVec x X ∧ ∀ i, Ordinary (X i) := by
  obtain ⟨C, B, hC, hB, h0⟩ := hbr_small R hn inv hinv A b X hA hb h
  refine C44_hbr_partial R inv hinv A b X hA hb (fun C' hC' B' hB' i j => ?_) h x hx
  rw [hC] at hC'
  cases hC'
  rw [isInverse_unique hB hB']
  exact h0 i j

/-- Every matrix in `A` has only the trivial solution of the homogeneous system. -/
def OnlyTrivial {n : ℕ} (A : Fin n → Fin n → Iv K) : Prop :=
  ∀ Q, InMat Q A → ∀ x : Fin n → K, (∀ i, ∑ j, Q i j * x j = 0) → ∀ i, x i = 0

/-- The full property C154: an answer of `HBR` proves that every matrix in `A` is regular. -/
def C154_statement (R : Rnd K) : Prop :=
  ∀ (n : ℕ) (inv : (Fin n → Fin n → K) → Except Err (Fin n → Fin n → K)), InvExact inv →
    ∀ (A : Fin n → Fin n → Iv K) (b X : Fin n → Iv K), (∀ i j, Ordinary (A i j)) → (∀ i, Ordinary (b i)) →
      hbr R inv A b = .ok X → OnlyTrivial A

/-- For a matrix in `A` and a solution of the homogeneous system, the preconditioned comparison matrix takes `|x|` to a vector
without positive entries. -/
theorem pre_homogeneous (R : Rnd K) {n : ℕ} (C : Fin n → Fin n → K) (A : Fin n → Fin n → Iv K) (hA : ∀ i j, Ordinary (A i j))
    (Q : Fin n → Fin n → K) (hQ : InMat Q A) (x : Fin n → K) (hx : ∀ i, ∑ j, Q i j * x j = 0) (i : Fin n) :
    ∑ j, compmat (preA R C A) i j * |x j| ≤ 0 := by
  obtain ⟨hA1, _⟩ := precond_ordinary R C A (fun _ => ⟨.classical, 0, 0⟩) hA fun _ => ⟨rfl, le_refl _⟩
  have hin : InMat (fun i l => ∑ j, C i j * Q j l) (preA R C A) := by
    intro i l
    obtain ⟨Z, h1, -, h3⟩ := (C26_matmul_point_encloses R (fun j => A j l) (C i) i.pos (fun j => hA j l)
      (fun j => Q j l) fun j => hQ j l).2
    simp only [preA, Precond.mulMat, h1, dotEntry, Option.getD_some]
    exact h3
  have e : ∀ i, apply (fun i l => ∑ j, C i j * Q j l) x i = (fun _ => 0 : Fin n → K) i := by
    intro i
    have : apply (fun i l => ∑ j, C i j * Q j l) x i = ∑ j, C i j * ∑ l, Q j l * x l := by
      simp only [apply, Finset.mul_sum, Finset.sum_mul]
      rw [Finset.sum_comm]
      exact Finset.sum_congr rfl fun _ _ => Finset.sum_congr rfl fun _ _ => by ring
    rw [this]
    simp only [hx, mul_zero, Finset.sum_const_zero]
  have := compmat_bound (preA R C A) (fun _ => ⟨.classical, 0, 0⟩) hA1 (fun _ => ⟨rfl, le_refl _⟩) _ hin
    (fun _ => 0) (fun _ => ⟨le_refl _, le_refl _⟩) x e i
  simpa [Iv.mag] using this

/-- C154 (partial): with at most three unknowns an answer of `HBR` proves that every matrix in `A` is regular, for every rounding.
Missing from `C154_statement`: four and more unknowns (false for four, `C154_false`). -/
theorem C154_small_partial (R : Rnd K) {n : ℕ} (hn : n ≤ 3) (inv : (Fin n → Fin n → K) → Except Err (Fin n → Fin n → K))
    (hinv : InvExact inv) (A : Fin n → Fin n → Iv K) (b X : Fin n → Iv K) (hA : ∀ i j, Ordinary (A i j))
    (hb : ∀ i, Ordinary (b i)) (h : hbr R inv A b = .ok X) : OnlyTrivial A := by
  obtain ⟨C, B, -, hB, h0⟩ := hbr_small R hn inv hinv A b X hA hb h
  intro Q hQ x hx i
  have hM := pre_homogeneous R C A hA Q hQ x hx
  have h1 : |x i| = ∑ j, B i j * ∑ l, compmat (preA R C A) j l * |x l| := by
    have : ∑ j, B i j * ∑ l, compmat (preA R C A) j l * |x l| = ∑ l, (∑ j, B i j * compmat (preA R C A) j l) * |x l| := by
      simp only [Finset.mul_sum, Finset.sum_mul]
      rw [Finset.sum_comm]
      exact Finset.sum_congr rfl fun _ _ => Finset.sum_congr rfl fun _ _ => by ring
    rw [this]
    simp only [hB.left]
    simp
  have h2 : |x i| ≤ 0 := h1 ▸ Finset.sum_nonpos fun j _ => mul_nonpos_of_nonneg_of_nonpos (h0 i j) (hM j)
  exact abs_eq_zero.mp (le_antisymm h2 (abs_nonneg _))

/-- C154 (partial), every size and every inversion routine, also an inexact one: if all entries of the vector `u` of line 41 are
positive (the code asks for one of them), every matrix in `A` is regular.
Missing from `C154_statement`: calls in which some but not all entries of `u` are positive. -/
theorem C154_all_positive_partial (R : Rnd K) {n : ℕ} (A : Fin n → Fin n → Iv K) (hA : ∀ i j, Ordinary (A i j))
    (C B : Fin n → Fin n → K) (hu : ∀ i, 0 < ∑ j, compmat (preA R C A) i j * |∑ l, B j l|) : OnlyTrivial A := by
  intro Q hQ x hx i
  have hM := pre_homogeneous R C A hA Q hQ x hx
  have hs := compmat_signs (preA R C A)
  have hv : ∀ i, 0 < |∑ l, B i l| := by
    intro i
    refine lt_of_le_of_ne (abs_nonneg _) fun e => ?_
    have h1 := hu i
    rw [← Finset.add_sum_erase _ _ (Finset.mem_univ i), ← e, mul_zero, zero_add] at h1
    refine absurd h1 (not_lt.mpr (Finset.sum_nonpos fun j hj => ?_))
    exact mul_nonpos_of_nonpos_of_nonneg (hs.2 i j (Finset.ne_of_mem_erase hj).symm) (abs_nonneg _)
  have h1 := zmat_mono _ hs.2 _ hv hu (fun j => -|x j|) (fun k => .inr ?_) i
  · exact abs_eq_zero.mp (le_antisymm (by linarith) (abs_nonneg _))
  · simp only [mul_neg, Finset.sum_neg_distrib]
    linarith [hM k]

/-- C154 is false of the code for four unknowns: `HBR` answers for a matrix that contains a singular one. -/
theorem C154_false : ¬ C154_statement (Rnd.exact : Rnd ℚ) := by
  intro h
  have h1 : hbrBadRun 1 = some (-3/2, 3/2) := by decide +kernel
  unfold hbrBadRun at h1
  split at h1
  · rename_i X hX
    have := h 4 hbrBadInv hbrBadInv_exact hbrBadA hbrBadb X (fun i j => ⟨rfl, by revert i j; decide +kernel⟩)
      (fun i => ⟨rfl, le_refl _⟩) hX ![![1, 0, -1, 2], ![0, 1, -1, 2], ![-3, 0, 1, 0], ![0, -1, 0, 1]]
      (fun i j => by rw [Iv.mem_def]; revert i j; decide +kernel) ![1, 1, 3, 1] (by decide +kernel) 0
    exact absurd this (by decide)
  · cases h1

/-- A matrix with three unknowns, `I + [-1/4, 1/4]` off the diagonal, and a run of `HBR` for it. -/
def hbrA3 : Fin 3 → Fin 3 → Iv ℚ := fun i j => if i = j then ⟨.classical, 1, 1⟩ else ⟨.classical, -1/4, 1/4⟩
/-- Right-hand side. -/
def hbrb3 : Fin 3 → Iv ℚ := ![⟨.classical, 1, 1⟩, ⟨.classical, 0, 1⟩, ⟨.classical, -1, 2⟩]
/-- Exact inverses of the identity and of the comparison matrix. -/
def hbrInv3 : (Fin 3 → Fin 3 → ℚ) → Except Err (Fin 3 → Fin 3 → ℚ) := fun M =>
  if M = fun i j => if i = j then 1 else 0 then .ok fun i j => if i = j then 1 else 0
  else if M = fun i j => if i = j then 1 else -1/4 then .ok fun i j => if i = j then 6/5 else 2/5
  else .error .linAlgError
/-- The returned endpoints. -/
def hbrRun3 (i : Fin 3) : Option (ℚ × ℚ) :=
  match hbr Rnd.exact hbrInv3 hbrA3 hbrb3 with
  | .ok X => some ((X i).a, (X i).b)
  | .error _ => none

theorem hbrInv3_exact : InvExact hbrInv3 := by
  intro M B h
  unfold hbrInv3 at h
  split_ifs at h with h1 h2
  · cases h
    subst h1
    unfold IsInverse
    decide +kernel
  · cases h
    subst h2
    unfold IsInverse
    decide +kernel

/-- The hypotheses of `C44_hbr_three_partial` and `C154_small_partial` are satisfiable. -/
example : hbrRun3 0 = some (0, 12/5) ∧ hbrRun3 2 = some (-2, 16/5) ∧ InvExact hbrInv3 :=
  ⟨by decide +kernel, by decide +kernel, hbrInv3_exact⟩

/-- The hypothesis of `C154_all_positive_partial` is satisfiable, also with an inexact inverse. -/
example : ∀ i, 0 < ∑ j, compmat (preA Rnd.exact (fun i j => if i = j then 1 else 0) hbrA3) i j *
    |∑ l, (fun i j => if i = j then 1 else 1/2 : Fin 3 → Fin 3 → ℚ) j l| := by decide +kernel

/-- `I + [-Δ, Δ]` with `Δ = [0 0 0; 0 0 1; 0 2 0]` is not an H-matrix, and `u = (1, -1, -1)` passes the test of line 42.  The last
division then raises ValueError. -/
example : (match hbr Rnd.exact (fun M : Fin 3 → Fin 3 → ℚ =>
      if M = (fun i j => if i = j then 1 else 0) then .ok fun i j => if i = j then 1 else 0
      else .ok ![![1, 0, 0], ![0, -1, -1], ![0, -2, -1]])
    (![![⟨.classical, 1, 1⟩, ⟨.classical, 0, 0⟩, ⟨.classical, 0, 0⟩],
       ![⟨.classical, 0, 0⟩, ⟨.classical, 1, 1⟩, ⟨.classical, -1, 1⟩],
       ![⟨.classical, 0, 0⟩, ⟨.classical, -2, 2⟩, ⟨.classical, 1, 1⟩]]) hbrb3 with
    | .error .valueError => true
    | _ => false) = true := by decide +kernel

end IntvalPy
