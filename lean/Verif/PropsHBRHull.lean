import Verif.PropsHBR
import Verif.ModelHBRMat
import Verif.PropsArrayOps
import Mathlib.Algebra.Order.Ring.Rat
import Mathlib.Tactic.Linarith
import Mathlib.Tactic.FieldSimp
import Mathlib.Tactic.Ring
import Mathlib.Tactic.FinCases
import Mathlib.Data.Fin.VecNotation
import Mathlib.Data.Fintype.Lattice
import Mathlib.LinearAlgebra.Matrix.ToLinearEquiv

/-!
# HBR: strongly regular matrices and sharpness (C44, C123, C124)
-/

set_option autoImplicit false
set_option linter.unusedSectionVars false

namespace IntvalPy
open Spec

variable {K : Type*} [Field K] [LinearOrder K] [IsStrictOrderedRing K]

/-! ## Matrices with nonpositive entries off the diagonal -/

/-- If `M u > 0` for some `u > 0` and the entries of `M` off the diagonal are not positive, then `M z ≥ 0` in the rows where
`z` might be negative implies `z ≥ 0`. -/
theorem zmat_mono {n : ℕ} (M : Fin n → Fin n → K) (hM : ∀ i j, i ≠ j → M i j ≤ 0) (u : Fin n → K) (hu : ∀ i, 0 < u i)
    (hMu : ∀ i, 0 < ∑ j, M i j * u j) (z : Fin n → K) (hz : ∀ i, 0 ≤ z i ∨ 0 ≤ ∑ j, M i j * z j) (i : Fin n) : 0 ≤ z i := by
  haveI : Nonempty (Fin n) := ⟨i⟩
  obtain ⟨k, hk⟩ := Finite.exists_min fun i => z i / u i
  by_contra hneg
  push Not at hneg
  have hρ : z k / u k < 0 := (hk i).trans_lt (div_neg_of_neg_of_pos hneg (hu i))
  have hzk : z k < 0 := by
    by_contra h
    exact absurd (div_nonneg (not_lt.1 h) (hu k).le) (not_le.2 hρ)
  have h1 : ∀ j, M k j * z j ≤ M k j * u j * (z k / u k) := by
    intro j
    by_cases hj : k = j
    · subst hj
      have : u k * (z k / u k) = z k := mul_div_cancel₀ _ (hu k).ne'
      rw [mul_assoc, this]
    · have h2 : u j * (z k / u k) ≤ z j := by
        have := hk j
        rw [le_div_iff₀ (hu j)] at this
        linarith
      rw [mul_assoc]
      exact mul_le_mul_of_nonpos_left h2 (hM k j hj)
  have h3 : ∑ j, M k j * z j ≤ (∑ j, M k j * u j) * (z k / u k) := by
    rw [Finset.sum_mul]
    exact Finset.sum_le_sum fun j _ => h1 j
  rcases hz k with h | h
  · linarith
  · have := mul_neg_of_pos_of_neg (hMu k) hρ
    linarith

theorem invNonneg_of_pos {n : ℕ} (M : Fin n → Fin n → K) (hM : ∀ i j, i ≠ j → M i j ≤ 0) (u : Fin n → K) (hu : ∀ i, 0 < u i)
    (hMu : ∀ i, 0 < ∑ j, M i j * u j) : InvNonneg M := by
  intro B hB i j
  refine zmat_mono M hM u hu hMu (fun k => B k j) (fun k => .inr ?_) i
  rw [hB k j]
  split_ifs <;> simp

theorem mag_nonneg (X : Iv K) (hX : Ordinary X) : 0 ≤ X.mag :=
  (abs_nonneg _).trans ((C20_characteristics X hX).1 X.a ⟨le_refl _, hX.2⟩).2

theorem compmat_off {n : ℕ} (A : Fin n → Fin n → Iv K) (hA : ∀ i j, Ordinary (A i j)) (i j : Fin n) (h : i ≠ j) :
    compmat A i j ≤ 0 := by
  rw [compmat, if_neg h]
  linarith [mag_nonneg _ (hA i j)]

/-! ## Strongly regular matrices -/

/-- The matrix `C Q` is generalised diagonally dominant with the weights `u` for every point matrix `Q` in `A`. -/
def Dominant {n : ℕ} (C : Fin n → Fin n → K) (u : Fin n → K) (A : Fin n → Fin n → Iv K) : Prop :=
  ∀ Q, InMat Q A → ∀ i, ∑ j ∈ Finset.univ.erase i, |∑ k, C i k * Q k j| * u j < |∑ k, C i k * Q k i| * u i

/-- `A` is strongly regular: some preconditioner `C` makes all its matrices generalised diagonally dominant with the same
weights.  (Neumaier: `C A` is an H-matrix.) -/
def StronglyRegular {n : ℕ} (A : Fin n → Fin n → Iv K) : Prop := ∃ C u, (∀ i, 0 < u i) ∧ Dominant C u A

/-- The sign of a number, 1 for zero. -/
def sg (x : K) : K := if 0 ≤ x then 1 else -1

theorem sg_mul (x : K) : sg x * x = |x| := by
  unfold sg
  split_ifs with h
  · rw [abs_of_nonneg h, one_mul]
  · rw [abs_of_neg (not_le.1 h)]; ring

theorem sg_sq (x : K) : sg x * sg x = 1 := by
  unfold sg
  split_ifs <;> ring

theorem abs_sg (x : K) : |sg x| = 1 := by
  unfold sg
  split_ifs <;> simp

theorem mid_rad_mem (X : Iv K) (hX : Ordinary X) (t : K) (ht : |t| ≤ 1) : X.mid Rnd.exact + t * X.rad Rnd.exact ∈ X := by
  obtain ⟨-, -, -, -, -, h1, h2, -, h3⟩ := C20_characteristics X hX
  obtain ⟨h4, h5⟩ := abs_le.1 ht
  rw [Iv.mem_def]
  constructor <;> nlinarith

theorem abs_sub_mid (X : Iv K) (hX : Ordinary X) (q : K) (hq : q ∈ X) : |q - X.mid Rnd.exact| ≤ X.rad Rnd.exact := by
  obtain ⟨-, -, -, -, -, h1, h2, -, h3⟩ := C20_characteristics X hX
  obtain ⟨h4, h5⟩ := Iv.mem_def.1 hq
  rw [abs_le]
  constructor <;> linarith

/-- The worst matrix in `A`: the dominance of the midpoint exceeds the radii. -/
theorem dominant_mid {n : ℕ} (C : Fin n → Fin n → K) (u : Fin n → K) (hu : ∀ i, 0 < u i) (A : Fin n → Fin n → Iv K)
    (hA : ∀ i j, Ordinary (A i j)) (h : Dominant C u A) (i : Fin n) :
    ∑ j ∈ Finset.univ.erase i, |∑ k, C i k * (A k j).mid Rnd.exact| * u j + ∑ j, (∑ k, |C i k| * (A k j).rad Rnd.exact) * u j
      < |∑ k, C i k * (A k i).mid Rnd.exact| * u i := by
  set N : Fin n → K := fun j => ∑ k, C i k * (A k j).mid Rnd.exact with hN
  set E : Fin n → K := fun j => ∑ k, |C i k| * (A k j).rad Rnd.exact with hE
  have hE0 : ∀ j, 0 ≤ E j := fun j => Finset.sum_nonneg fun k _ =>
    mul_nonneg (abs_nonneg _) (C20_characteristics _ (hA k j)).2.2.2.2.2.2.2.2
  -- a matrix with prescribed multiples of the radii in the columns
  have key : ∀ τ : Fin n → K, (∀ j, |τ j| ≤ 1) →
      ∑ j ∈ Finset.univ.erase i, |N j + τ j * E j| * u j < |N i + τ i * E i| * u i := by
    intro τ hτ
    have hQ : InMat (fun k j => (A k j).mid Rnd.exact + τ j * sg (C i k) * (A k j).rad Rnd.exact) A := fun k j =>
      mid_rad_mem _ (hA k j) _ (by rw [abs_mul, abs_sg, mul_one]; exact hτ j)
    have e : ∀ j, ∑ k, C i k * ((A k j).mid Rnd.exact + τ j * sg (C i k) * (A k j).rad Rnd.exact) = N j + τ j * E j := by
      intro j
      rw [hN, hE]
      simp only [Finset.mul_sum, ← Finset.sum_add_distrib]
      refine Finset.sum_congr rfl fun k _ => ?_
      rw [← sg_mul (C i k)]
      ring
    have := h _ hQ i
    simp only [e] at this
    exact this
  have hoff : ∀ j, |N j + sg (N j) * E j| = |N j| + E j := by
    intro j
    have : N j + sg (N j) * E j = sg (N j) * (|N j| + E j) := by
      rw [← sg_mul (N j), mul_add, ← mul_assoc, sg_sq, one_mul]
    rw [this, abs_mul, abs_sg, one_mul, abs_of_nonneg (add_nonneg (abs_nonneg _) (hE0 j))]
  by_cases hc : E i ≤ |N i|
  · have := key (fun j => if j = i then -sg (N i) else sg (N j)) fun j => by
      split_ifs
      · rw [abs_neg, abs_sg]
      · rw [abs_sg]
    rw [if_pos rfl] at this
    have e1 : |N i + -sg (N i) * E i| = |N i| - E i := by
      have : N i + -sg (N i) * E i = sg (N i) * (|N i| - E i) := by
        rw [← sg_mul (N i), mul_sub, ← mul_assoc, sg_sq]
        ring
      rw [this, abs_mul, abs_sg, one_mul, abs_of_nonneg (by linarith)]
    have e2 : ∑ j ∈ Finset.univ.erase i, |N j + (if j = i then -sg (N i) else sg (N j)) * E j| * u j
        = ∑ j ∈ Finset.univ.erase i, |N j| * u j + ∑ j ∈ Finset.univ.erase i, E j * u j := by
      rw [← Finset.sum_add_distrib]
      refine Finset.sum_congr rfl fun j hj => ?_
      rw [if_neg (Finset.ne_of_mem_erase hj), hoff]
      ring
    rw [e1, e2] at this
    have e3 : ∑ j, E j * u j = E i * u i + ∑ j ∈ Finset.univ.erase i, E j * u j :=
      (Finset.add_sum_erase _ (fun j => E j * u j) (Finset.mem_univ i)).symm
    rw [e3]
    linarith
  · push Not at hc
    exfalso
    have hp : 0 < E i := (abs_nonneg _).trans_lt hc
    have := key (fun j => if j = i then -N i / E i else 0) fun j => by
      split_ifs
      · rw [abs_div, abs_neg, abs_of_pos hp, div_le_one hp]
        exact hc.le
      · simp
    rw [if_pos rfl] at this
    have e1 : N i + -N i / E i * E i = 0 := by
      rw [div_mul_cancel₀ _ hp.ne']
      ring
    rw [e1, abs_zero, zero_mul] at this
    have h0 : 0 ≤ ∑ j ∈ Finset.univ.erase i, |N j + (if j = i then -N i / E i else 0) * E j| * u j :=
      Finset.sum_nonneg fun j _ => mul_nonneg (abs_nonneg _) (hu j).le
    linarith

/-- A generalised diagonally dominant system bounds its solution by the weights. -/
theorem dominant_bound {n : ℕ} (N : Fin n → Fin n → K) (u e z : Fin n → K) (hu : ∀ i, 0 < u i)
    (hN : ∀ i, ∑ j ∈ Finset.univ.erase i, |N i j| * u j + e i < |N i i| * u i) (hz : ∀ i, |∑ j, N i j * z j| ≤ e i) (i : Fin n) :
    |z i| < u i := by
  haveI : Nonempty (Fin n) := ⟨i⟩
  obtain ⟨k, hk⟩ := Finite.exists_max fun i => |z i| / u i
  have hk1 : |z k| / u k < 1 := by
    by_contra hc
    push Not at hc
    have e0 : 0 ≤ e k := (abs_nonneg _).trans (hz k)
    have h1 : N k k * z k = ∑ j, N k j * z j - ∑ j ∈ Finset.univ.erase k, N k j * z j := by
      rw [← Finset.add_sum_erase _ _ (Finset.mem_univ k)]
      ring
    have h2 : |N k k| * |z k| ≤ e k + ∑ j ∈ Finset.univ.erase k, |N k j| * |z j| := by
      rw [← abs_mul, h1]
      refine (abs_sub _ _).trans (add_le_add (hz k) ((Finset.abs_sum_le_sum_abs _ _).trans (le_of_eq ?_)))
      exact Finset.sum_congr rfl fun j _ => abs_mul _ _
    have h3 : ∑ j ∈ Finset.univ.erase k, |N k j| * |z j| ≤ (∑ j ∈ Finset.univ.erase k, |N k j| * u j) * (|z k| / u k) := by
      rw [Finset.sum_mul]
      refine Finset.sum_le_sum fun j _ => ?_
      have := hk j
      rw [div_le_iff₀ (hu j)] at this
      rw [mul_assoc]
      exact mul_le_mul_of_nonneg_left (by linarith) (abs_nonneg _)
    have h4 : e k ≤ e k * (|z k| / u k) := le_mul_of_one_le_right e0 hc
    have h5 := mul_lt_mul_of_pos_right (hN k) (lt_of_lt_of_le one_pos hc)
    have h6 : |N k k| * u k * (|z k| / u k) = |N k k| * |z k| := by
      rw [mul_assoc, mul_div_cancel₀ _ (hu k).ne']
    rw [h6, add_mul] at h5
    linarith
  have := (hk i).trans_lt hk1
  rwa [div_lt_one (hu i)] at this

/-- The midpoint of a strongly regular matrix annihilates no vector except zero. -/
theorem dominant_injective {n : ℕ} (N : Fin n → Fin n → K) (u z : Fin n → K) (hu : ∀ i, 0 < u i)
    (hN : ∀ i, ∑ j ∈ Finset.univ.erase i, |N i j| * u j < |N i i| * u i) (hz : ∀ i, ∑ j, N i j * z j = 0) (i : Fin n) : z i = 0 := by
  by_contra h
  have h1 : 0 < |z i| := abs_pos.2 h
  have := dominant_bound N u (fun _ => 0) (fun j => u i / |z i| * z j) hu (fun i => by simpa using hN i) (fun k => by
    have : ∑ j, N k j * (u i / |z i| * z j) = u i / |z i| * ∑ j, N k j * z j := by
      rw [Finset.mul_sum]
      exact Finset.sum_congr rfl fun j _ => by ring
    rw [this, hz k, mul_zero, abs_zero]) i
  rw [abs_mul, abs_of_pos (div_pos (hu i) h1), div_mul_cancel₀ _ h1.ne'] at this
  exact lt_irrefl _ this

/-- The midpoint of a strongly regular matrix is invertible. -/
theorem StronglyRegular.mid_inverse {n : ℕ} (A : Fin n → Fin n → Iv K) (hA : ∀ i j, Ordinary (A i j)) (h : StronglyRegular A) :
    ∃ B, IsInverse (fun i j => (A i j).mid Rnd.exact) B := by
  obtain ⟨C, u, hu, hC⟩ := h
  have hE0 : ∀ i, 0 ≤ ∑ j, (∑ k, |C i k| * (A k j).rad Rnd.exact) * u j := fun i => Finset.sum_nonneg fun j _ =>
    mul_nonneg (Finset.sum_nonneg fun k _ => mul_nonneg (abs_nonneg _) (C20_characteristics _ (hA k j)).2.2.2.2.2.2.2.2) (hu j).le
  have hdet : (Matrix.of fun i j => (A i j).mid Rnd.exact).det ≠ 0 := by
    intro h0
    obtain ⟨z, hz0, hz⟩ := Matrix.exists_mulVec_eq_zero_iff.2 h0
    apply hz0
    funext i
    refine dominant_injective (fun i j => ∑ k, C i k * (A k j).mid Rnd.exact) u z hu
      (fun i => by linarith [dominant_mid C u hu A hA hC i, hE0 i]) (fun i => ?_) i
    have e : ∑ j, (∑ k, C i k * (A k j).mid Rnd.exact) * z j = ∑ k, C i k * ∑ j, (A k j).mid Rnd.exact * z j := by
      simp only [Finset.mul_sum, Finset.sum_mul]
      rw [Finset.sum_comm]
      exact Finset.sum_congr rfl fun _ _ => Finset.sum_congr rfl fun _ _ => by ring
    rw [e]
    refine Finset.sum_eq_zero fun k _ => ?_
    have : ∑ j, (A k j).mid Rnd.exact * z j = 0 := by
      have := congrFun hz k
      simpa [Matrix.mulVec, dotProduct] using this
    rw [this, mul_zero]
  refine ⟨((Matrix.of fun i j => (A i j).mid Rnd.exact)⁻¹ : Matrix (Fin n) (Fin n) K), fun i j => ?_⟩
  have := congrFun (congrFun (Matrix.mul_nonsing_inv _ (Ne.isUnit hdet)) i) j
  rw [Matrix.mul_apply, Matrix.one_apply] at this
  exact this

/-- For a strongly regular matrix the inverse of the midpoint is a suitable preconditioner, with the same weights. -/
theorem dominant_mid_inverse {n : ℕ} (C : Fin n → Fin n → K) (u : Fin n → K) (hu : ∀ i, 0 < u i) (A : Fin n → Fin n → Iv K)
    (hA : ∀ i j, Ordinary (A i j)) (h : Dominant C u A) (B : Fin n → Fin n → K)
    (hB : IsInverse (fun i j => (A i j).mid Rnd.exact) B) (i : Fin n) :
    ∑ j, (∑ k, |B i k| * (A k j).rad Rnd.exact) * u j < u i := by
  set r : Fin n → K := fun k => ∑ j, (A k j).rad Rnd.exact * u j with hr
  have hr0 : ∀ k, 0 ≤ r k := fun k => Finset.sum_nonneg fun j _ =>
    mul_nonneg (C20_characteristics _ (hA k j)).2.2.2.2.2.2.2.2 (hu j).le
  have swap : ∀ c : Fin n → K, ∑ j, (∑ k, c k * (A k j).rad Rnd.exact) * u j = ∑ k, c k * r k := by
    intro c
    simp only [hr, Finset.mul_sum, Finset.sum_mul]
    rw [Finset.sum_comm]
    exact Finset.sum_congr rfl fun _ _ => Finset.sum_congr rfl fun _ _ => by ring
  set z : Fin n → K := fun j => ∑ k, B j k * (sg (B i k) * r k) with hz
  have hzi : z i = ∑ k, |B i k| * r k := by
    refine Finset.sum_congr rfl fun k _ => ?_
    rw [← sg_mul (B i k)]
    ring
  have hmz : ∀ k, ∑ j, (A k j).mid Rnd.exact * z j = sg (B i k) * r k := by
    intro k
    have : ∑ j, (A k j).mid Rnd.exact * z j = ∑ l, (∑ j, (A k j).mid Rnd.exact * B j l) * (sg (B i l) * r l) := by
      simp only [hz, Finset.mul_sum, Finset.sum_mul]
      rw [Finset.sum_comm]
      exact Finset.sum_congr rfl fun _ _ => Finset.sum_congr rfl fun _ _ => by ring
    rw [this]
    simp only [hB k]
    simp
  have key := dominant_bound (fun i j => ∑ k, C i k * (A k j).mid Rnd.exact) u
    (fun i => ∑ j, (∑ k, |C i k| * (A k j).rad Rnd.exact) * u j) z hu (dominant_mid C u hu A hA h) (fun l => by
      have : ∑ j, (∑ k, C l k * (A k j).mid Rnd.exact) * z j = ∑ k, C l k * ∑ j, (A k j).mid Rnd.exact * z j := by
        simp only [Finset.mul_sum, Finset.sum_mul]
        rw [Finset.sum_comm]
        exact Finset.sum_congr rfl fun _ _ => Finset.sum_congr rfl fun _ _ => by ring
      rw [this, swap]
      refine (Finset.abs_sum_le_sum_abs _ _).trans (Finset.sum_le_sum fun k _ => ?_)
      rw [hmz, abs_mul, abs_mul, abs_sg, one_mul, abs_of_nonneg (hr0 k)]) i
  rw [swap, ← hzi]
  exact (le_abs_self _).trans_lt key

/-- The comparison matrix of the preconditioned matrix, from the radii. -/
theorem compmat_pre_pos {n : ℕ} (A : Fin n → Fin n → Iv K) (hA : ∀ i j, Ordinary (A i j)) (B : Fin n → Fin n → K)
    (hB : IsInverse (fun i j => (A i j).mid Rnd.exact) B) (u : Fin n → K) (hu : ∀ i, 0 < u i) (i : Fin n)
    (hi : ∑ j, (∑ k, |B i k| * (A k j).rad Rnd.exact) * u j < u i) : 0 < ∑ j, compmat (preA Rnd.exact B A) i j * u j := by
  have dev : ∀ j q, q ∈ preA Rnd.exact B A i j → |q - if i = j then 1 else 0| ≤ ∑ k, |B i k| * (A k j).rad Rnd.exact := by
    intro j q hq
    have hr := mulVec_range B (fun k => A k j) (fun k => hA k j) i
    have ends : ∀ s, (∃ b', InVec b' (fun k => A k j) ∧ s = apply B b' i) →
        |s - if i = j then 1 else 0| ≤ ∑ k, |B i k| * (A k j).rad Rnd.exact := by
      rintro s ⟨Q, hQ, rfl⟩
      have : apply B Q i - (if i = j then 1 else 0) = ∑ k, B i k * (Q k - (A k j).mid Rnd.exact) := by
        rw [← hB.left i j, apply, ← Finset.sum_sub_distrib]
        exact Finset.sum_congr rfl fun _ _ => by ring
      rw [this]
      refine (Finset.abs_sum_le_sum_abs _ _).trans (Finset.sum_le_sum fun k _ => ?_)
      rw [abs_mul]
      exact mul_le_mul_of_nonneg_left (abs_sub_mid _ (hA k j) _ (hQ k)) (abs_nonneg _)
    obtain ⟨q1, q2⟩ := Iv.mem_def.1 hq
    have e1 := abs_le.1 (ends _ hr.2.1)
    have e2 := abs_le.1 (ends _ hr.2.2)
    have d1 : ((Precond.point B).mulVec Rnd.exact (fun k => A k j) i).a ≤ q := q1
    have d2 : q ≤ ((Precond.point B).mulVec Rnd.exact (fun k => A k j) i).b := q2
    exact abs_le.2 ⟨by linarith [e1.1], by linarith [e2.2]⟩
  have hO : ∀ j, Ordinary (preA Rnd.exact B A i j) := fun j => (precond_ordinary Rnd.exact B A (fun i => A i i) hA fun i => hA i i).1 i j
  have lower : ∀ j, (if i = j then 1 else 0) * u j - (∑ k, |B i k| * (A k j).rad Rnd.exact) * u j ≤ compmat (preA Rnd.exact B A) i j * u j := by
    intro j
    obtain ⟨-, ⟨q, hq, eq⟩, ⟨q', hq', eq'⟩, -⟩ := C20_characteristics _ (hO j)
    rw [← sub_mul]
    refine mul_le_mul_of_nonneg_right ?_ (hu j).le
    unfold compmat
    by_cases hij : i = j
    · subst hij
      have := dev i q hq
      rw [if_pos rfl] at this ⊢
      rw [if_pos rfl, ← eq]
      have h1 := (abs_le.1 this).1
      linarith [le_abs_self q]
    · have := dev j q' hq'
      rw [if_neg hij] at this ⊢
      rw [if_neg hij, ← eq']
      rw [sub_zero] at this
      linarith
  refine lt_of_lt_of_le ?_ (Finset.sum_le_sum fun j _ => lower j)
  rw [Finset.sum_sub_distrib]
  simp only [ite_mul, one_mul, zero_mul, Finset.sum_ite_eq, Finset.mem_univ, if_true]
  linarith

/-- A strongly regular matrix passes the test of `HBR`. -/
theorem StronglyRegular.invNonneg {n : ℕ} (A : Fin n → Fin n → Iv K) (hA : ∀ i j, Ordinary (A i j)) (h : StronglyRegular A)
    (B : Fin n → Fin n → K) (hB : IsInverse (fun i j => (A i j).mid Rnd.exact) B) :
    InvNonneg (compmat (preA Rnd.exact B A)) ∧ ∃ D, IsInverse (compmat (preA Rnd.exact B A)) D := by
  obtain ⟨C, u, hu, hC⟩ := h
  have hO := (precond_ordinary Rnd.exact B A (fun i => A i i) hA fun i => hA i i).1
  have hpos := fun i => compmat_pre_pos A hA B hB u hu i (dominant_mid_inverse C u hu A hA hC B hB i)
  have hoff := compmat_off _ hO
  refine ⟨invNonneg_of_pos _ hoff u hu hpos, ?_⟩
  have hdet : (Matrix.of (compmat (preA Rnd.exact B A))).det ≠ 0 := by
    intro h0
    obtain ⟨z, hz0, hz⟩ := Matrix.exists_mulVec_eq_zero_iff.2 h0
    apply hz0
    have hz' : ∀ k, ∑ j, compmat (preA Rnd.exact B A) k j * z j = 0 := by
      intro k
      have := congrFun hz k
      simpa [Matrix.mulVec, dotProduct] using this
    funext i
    have h1 := zmat_mono _ hoff u hu hpos z (fun k => .inr (hz' k).ge) i
    have h2 := zmat_mono _ hoff u hu hpos (fun k => -z k) (fun k => .inr (by
      simp only [mul_neg, Finset.sum_neg_distrib, hz' k, neg_zero, le_refl])) i
    exact le_antisymm (neg_nonneg.1 h2) h1
  refine ⟨((Matrix.of (compmat (preA Rnd.exact B A)))⁻¹ : Matrix (Fin n) (Fin n) K), fun i j => ?_⟩
  have := congrFun (congrFun (Matrix.mul_nonsing_inv _ (Ne.isUnit hdet)) i) j
  rw [Matrix.mul_apply, Matrix.one_apply] at this
  exact this

/-- The matrix inversion routine inverts every invertible matrix. -/
def InvComplete {n : ℕ} (inv : (Fin n → Fin n → K) → Except Err (Fin n → Fin n → K)) : Prop :=
  ∀ M, (∃ B, IsInverse M B) → ∃ B, inv M = .ok B

/-- C44 (any size; exact arithmetic and exact inverses): for a strongly regular matrix `HBR` returns a box, and it contains every
solution. -/
theorem C44_strongly_regular {n : ℕ} (hn : 0 < n) (inv : (Fin n → Fin n → K) → Except Err (Fin n → Fin n → K))
    (hinv : InvExact inv) (hcomp : InvComplete inv) (A : Fin n → Fin n → Iv K) (b : Fin n → Iv K)
    (hA : ∀ i j, Ordinary (A i j)) (hb : ∀ i, Ordinary (b i)) (hS : StronglyRegular A) :
    ∃ X, hbr Rnd.exact inv A b = .ok X ∧ (∀ i, Ordinary (X i)) ∧ ∀ x, United A b x → InVec x X := by
  obtain ⟨C, hC⟩ := hcomp _ (hS.mid_inverse A hA)
  have hCI := hinv _ _ hC
  obtain ⟨hN, hD⟩ := hS.invNonneg A hA C hCI
  obtain ⟨B, hB⟩ := hcomp _ hD
  obtain ⟨X, hX⟩ := C44_hbr_returns hn inv hinv A b hA hb C B hC hB hN
  have key := C44_hbr_partial Rnd.exact inv hinv A b X hA hb (fun C' hC' => by rw [hC] at hC'; cases hC'; exact hN) hX
  refine ⟨X, hX, (key (apply C fun i => (b i).a) ?_).2, fun x hx => (key x hx).1⟩
  refine ⟨fun i j => (A i j).mid Rnd.exact, fun i j => ?_, fun i => (b i).a, fun i => Iv.mem_def.2 ⟨le_refl _, (hb i).2⟩, fun k => ?_⟩
  · have := mid_rad_mem _ (hA i j) 0 (by simp)
    simpa using this
  · have : apply (fun i j => (A i j).mid Rnd.exact) (apply C fun i => (b i).a) k
        = ∑ j, (∑ l, (A k l).mid Rnd.exact * C l j) * (b j).a := by
      unfold apply
      simp only [Finset.mul_sum, Finset.sum_mul]
      rw [Finset.sum_comm]
      exact Finset.sum_congr rfl fun i _ => Finset.sum_congr rfl fun j _ => by ring
    rw [this]
    simp only [hCI k]
    simp

/-- A matrix inside a strongly regular one is strongly regular. -/
theorem StronglyRegular.sub {n : ℕ} (A A' : Fin n → Fin n → Iv K) (h : StronglyRegular A)
    (hs : ∀ i j, (A i j).a ≤ (A' i j).a ∧ (A' i j).b ≤ (A i j).b) : StronglyRegular A' := by
  obtain ⟨C, u, hu, hC⟩ := h
  exact ⟨C, u, hu, fun Q hQ => hC Q fun i j =>
    Iv.mem_def.2 ⟨(hs i j).1.trans (Iv.mem_def.1 (hQ i j)).1, (Iv.mem_def.1 (hQ i j)).2.trans (hs i j).2⟩⟩

/-! ## Sharpness -/

/-- The entries off the diagonal are symmetric intervals and the diagonal is positive (for instance, the midpoint is the identity and the
radii on the diagonal are less than 1). -/
def Centred {n : ℕ} (A : Fin n → Fin n → Iv K) : Prop :=
  (∀ i, 0 < (A i i).a) ∧ ∀ i j, i ≠ j → (A i j).a = -(A i j).b

theorem mag_sym (X : Iv K) (hX : Ordinary X) (h : X.a = -X.b) : X.mag = X.b ∧ 0 ≤ X.b := by
  have h0 : 0 ≤ X.b := by linarith [hX.2]
  obtain ⟨h1, -, ⟨q, hq, eq⟩, -⟩ := C20_characteristics X hX
  obtain ⟨q1, q2⟩ := Iv.mem_def.1 hq
  refine ⟨le_antisymm ?_ ?_, h0⟩
  · rw [← eq]; exact abs_le.2 ⟨by linarith, q2⟩
  · exact (le_abs_self _).trans (h1 X.b ⟨hX.2, le_refl _⟩).2

theorem mig_pos (X : Iv K) (hX : Ordinary X) (h : 0 < X.a) : X.mig = X.a := by
  obtain ⟨h1, ⟨q, hq, eq⟩, -⟩ := C20_characteristics X hX
  refine le_antisymm ?_ ?_
  · have := (h1 X.a ⟨le_refl _, hX.2⟩).1
    rwa [abs_of_pos h] at this
  · rw [← eq]; exact (Iv.mem_def.1 hq).1.trans (le_abs_self _)

/-- A solution of the comparison system with one component of the right-hand side free. -/
theorem hull_vec {n : ℕ} (A : Fin n → Fin n → Iv K) (hA : ∀ i j, Ordinary (A i j)) (B : Fin n → Fin n → K)
    (hB : IsInverse (compmat A) B) (h0 : ∀ i j, 0 ≤ B i j) (g : Fin n → K) (hg : ∀ j, 0 ≤ g j) (i : Fin n) (s : K)
    (hs : 0 ≤ B i i * ((∑ j, B i j * g j) / B i i - g i + s)) :
    ∃ y : Fin n → K, (∀ j, 0 ≤ y j) ∧ (∀ j, j ≠ i → ∑ k, compmat A j k * y k = g j) ∧ ∑ k, compmat A i k * y k = s ∧
      y i = B i i * ((∑ j, B i j * g j) / B i i - g i + s) := by
  have d0 := fun j => (diag_pos A hA B hB h0 j).1
  set f : Fin n → K := fun j => if j = i then s else g j with hf
  set y : Fin n → K := fun k => ∑ l, B k l * f l with hy
  have hMB : ∀ (f : Fin n → K) j, ∑ k, compmat A j k * ∑ l, B k l * f l = f j := by
    intro f j
    have : ∑ k, compmat A j k * ∑ l, B k l * f l = ∑ l, (∑ k, compmat A j k * B k l) * f l := by
      simp only [Finset.mul_sum, Finset.sum_mul]
      rw [Finset.sum_comm]
      exact Finset.sum_congr rfl fun _ _ => Finset.sum_congr rfl fun _ _ => by ring
    rw [this]
    simp only [hB j]
    simp
  have hyi : y i = B i i * ((∑ j, B i j * g j) / B i i - g i + s) := by
    have e1 : y i = B i i * s + ∑ l ∈ Finset.univ.erase i, B i l * g l := by
      have : y i = B i i * f i + ∑ l ∈ Finset.univ.erase i, B i l * f l :=
        (Finset.add_sum_erase _ (fun l => B i l * f l) (Finset.mem_univ i)).symm
      rw [this, hf]
      dsimp only
      rw [if_pos rfl]
      congr 1
      exact Finset.sum_congr rfl fun l hl => by rw [if_neg (Finset.ne_of_mem_erase hl)]
    have e2 : ∑ j, B i j * g j = B i i * g i + ∑ l ∈ Finset.univ.erase i, B i l * g l :=
      (Finset.add_sum_erase _ (fun l => B i l * g l) (Finset.mem_univ i)).symm
    rw [e1, e2]
    field_simp [(d0 i).ne']
    ring
  refine ⟨y, ?_, fun j hj => ?_, ?_, hyi⟩
  · refine zmat_mono (compmat A) (compmat_off A hA) (fun k => ∑ l, B k l * 1) (fun k => ?_) (fun k => ?_) y fun k => ?_
    · exact lt_of_lt_of_le (by simpa using d0 k) (Finset.single_le_sum (f := fun l => B k l * 1)
        (fun l _ => by simpa using h0 k l) (Finset.mem_univ k))
    · rw [hMB (fun _ => 1) k]; exact one_pos
    · by_cases hk : k = i
      · left; subst hk; rw [hyi]; exact hs
      · right; rw [hMB f k, hf]; simp only [if_neg hk]; exact hg k
  · rw [hMB f j, hf]; simp only [if_neg hj]
  · rw [hMB f i, hf]; simp

/-- A solution of an interval system with centred matrix, built from a solution of the comparison system. -/
theorem hull_point {n : ℕ} (A : Fin n → Fin n → Iv K) (b : Fin n → Iv K) (hA : ∀ i j, Ordinary (A i j))
    (hb : ∀ i, Ordinary (b i)) (hc : Centred A) (i : Fin n) (y : Fin n → K)
    (hy : ∀ j, j ≠ i → ∑ k, compmat A j k * y k = (b j).mag) (ε σ c d : K) (hε : ε * ε = 1) (hσ : σ * σ = 1) (hcb : c ∈ b i)
    (hd : d ∈ A i i)
    (hi : d * (σ * y i) - ε * ∑ k ∈ Finset.univ.erase i, (A i k).mag * y k = c) : ∃ x, United A b x ∧ x i = σ * y i := by
  have hex : ∀ j, ∃ x ∈ b j, |x| = (b j).mag := fun j => (C20_characteristics _ (hb j)).2.2.1
  choose t ht1 ht2 using hex
  set τ : Fin n → K := fun k => if k = i then σ else sg (t k) with hτ
  have hτ2 : ∀ k, τ k * τ k = 1 := fun k => by
    rw [hτ]; dsimp only; split_ifs
    · exact hσ
    · exact sg_sq _
  set φ : Fin n → K := fun k => if k = i then ε else τ k with hφ
  have hφ2 : ∀ k, φ k * φ k = 1 := fun k => by
    rw [hφ]; dsimp only; split_ifs
    · exact hε
    · exact hτ2 _
  have ab1 : ∀ s : K, s * s = 1 → |s| = 1 := fun s hs => by
    have : |s| * |s| = 1 := by rw [abs_mul_abs_self, hs]
    nlinarith [abs_nonneg s]
  refine ⟨fun k => τ k * y k, ⟨fun j k => if j = k then (if j = i then d else (A j j).a) else -(φ j * τ k * (A j k).mag), fun j k => ?_,
    fun j => if j = i then c else t j, fun j => ?_, fun j => ?_⟩, by simp [hτ]⟩
  · dsimp only
    split_ifs with h1 h2
    · subst h1; subst h2; exact hd
    · subst h1; exact Iv.mem_def.2 ⟨le_refl _, (hA j j).2⟩
    · obtain ⟨m1, m2⟩ := mag_sym _ (hA j k) (hc.2 j k h1)
      have : |-(φ j * τ k * (A j k).mag)| ≤ (A j k).b := by
        rw [abs_neg, abs_mul, abs_mul, ab1 _ (hφ2 j), ab1 _ (hτ2 k), m1, abs_of_nonneg m2]
        linarith
      obtain ⟨a1, a2⟩ := abs_le.1 this
      exact Iv.mem_def.2 ⟨by rw [hc.2 j k h1]; exact a1, a2⟩
  · dsimp only
    split_ifs with h1
    · subst h1; exact hcb
    · exact ht1 j
  · have hsum : ∀ D : K, apply (fun j k => if j = k then (if j = i then d else (A j j).a) else -(φ j * τ k * (A j k).mag))
        (fun k => τ k * y k) j = (if j = i then d else (A j j).a) * (τ j * y j) - φ j * ∑ k ∈ Finset.univ.erase j, (A j k).mag * y k := by
      intro _
      rw [apply, ← Finset.add_sum_erase _ _ (Finset.mem_univ j), if_pos rfl, sub_eq_add_neg]
      congr 1
      rw [Finset.mul_sum, ← Finset.sum_neg_distrib]
      refine Finset.sum_congr rfl fun k hk => ?_
      rw [if_neg (Finset.ne_of_mem_erase hk).symm]
      linear_combination (-φ j * (A j k).mag * y k) * hτ2 k
    rw [hsum 0]
    dsimp only
    by_cases hj : j = i
    · subst hj
      rw [if_pos rfl, if_pos rfl, hφ, hτ]
      simp only [if_true]
      exact hi
    · have h1 := hy j hj
      rw [← Finset.add_sum_erase _ _ (Finset.mem_univ j), compmat, if_pos rfl, mig_pos _ (hA j j) (hc.1 j)] at h1
      have h2 : ∑ k ∈ Finset.univ.erase j, compmat A j k * y k = -∑ k ∈ Finset.univ.erase j, (A j k).mag * y k := by
        rw [← Finset.sum_neg_distrib]
        refine Finset.sum_congr rfl fun k hk => ?_
        rw [compmat, if_neg (Finset.ne_of_mem_erase hk).symm, neg_mul]
      rw [h2] at h1
      rw [if_neg hj, if_neg hj]
      have e1 : φ j = τ j := by rw [hφ]; simp only [if_neg hj]
      have e2 : τ j = sg (t j) := by rw [hτ]; simp only [if_neg hj]
      rw [e1, e2]
      have h3 := sg_mul (t j)
      rw [ht2 j] at h3
      have h4 := sg_sq (t j)
      linear_combination sg (t j) * h1 - sg (t j) * h3 + t j * h4

/-- Both ends of the quotient of `HBR` belong to solutions. -/
theorem hull_end {n : ℕ} (A : Fin n → Fin n → Iv K) (b : Fin n → Iv K) (hA : ∀ i j, Ordinary (A i j))
    (hb : ∀ i, Ordinary (b i)) (hc : Centred A) (B : Fin n → Fin n → K)
    (hB : IsInverse (compmat A) B) (h0 : ∀ i j, 0 ≤ B i j) (i : Fin n) (ε c : K) (hε : ε * ε = 1) (hcb : c ∈ b i) :
    ∃ x, United A b x ∧ ε * x i = if 0 ≤ ε * c + ((∑ j, B i j * (b j).mag) / B i i - (b i).mag)
      then (ε * c + ((∑ j, B i j * (b j).mag) / B i i - (b i).mag)) / ((A i i).a - (compmat A i i + -1 / B i i))
      else (ε * c + ((∑ j, B i j * (b j).mag) / B i i - (b i).mag)) / ((A i i).b + (compmat A i i + -1 / B i i)) := by
  obtain ⟨d0, d1⟩ := diag_pos A hA B hB h0 i
  have hg : ∀ j, 0 ≤ (b j).mag := fun j => mag_nonneg _ (hb j)
  have eM : compmat A i i = (A i i).a := by rw [compmat, if_pos rfl, mig_pos _ (hA i i) (hc.1 i)]
  set β : K := (∑ j, B i j * (b j).mag) / B i i - (b i).mag with hβ
  set α : K := compmat A i i + -1 / B i i with hα
  have α0 : 0 ≤ α := by
    have : α = (compmat A i i * B i i - 1) / B i i := by rw [hα]; field_simp; ring
    rw [this]
    exact div_nonneg (by linarith) d0.le
  have hrow : ∀ y : Fin n → K, ∑ k, compmat A i k * y k = (A i i).a * y i - ∑ k ∈ Finset.univ.erase i, (A i k).mag * y k := by
    intro y
    rw [← Finset.add_sum_erase _ _ (Finset.mem_univ i), eM, sub_eq_add_neg, ← Finset.sum_neg_distrib]
    congr 1
    refine Finset.sum_congr rfl fun k hk => ?_
    rw [compmat, if_neg (Finset.ne_of_mem_erase hk).symm, neg_mul]
  split_ifs with h
  · obtain ⟨y, y0, y1, y2, y3⟩ := hull_vec A hA B hB h0 _ hg i (ε * c) (mul_nonneg d0.le (by rw [← hβ]; linarith))
    rw [hrow] at y2
    obtain ⟨x, hx, hxi⟩ := hull_point A b hA hb hc i y y1 ε ε c (A i i).a hε hε hcb (Iv.mem_def.2 ⟨le_refl _, (hA i i).2⟩) (by
      linear_combination ε * y2 + c * hε)
    refine ⟨x, hx, ?_⟩
    have e : (A i i).a - α = 1 / B i i := by rw [hα, eM]; ring
    rw [hxi, e, y3, ← hβ]
    field_simp
    linear_combination (β + ε * c) * hε
  · push Not at h
    have hpos : 0 < (A i i).b + α := by linarith [hc.1 i, (hA i i).2]
    set θ : K := -(ε * c + β) / ((A i i).b + α) with hθ
    have θ0 : 0 ≤ θ := div_nonneg (by linarith) hpos.le
    have e1 : B i i * (β + (θ / B i i - β)) = θ := by field_simp; ring
    obtain ⟨y, y0, y1, y2, y3⟩ := hull_vec A hA B hB h0 _ hg i (θ / B i i - β) (by rw [← hβ, e1]; exact θ0)
    rw [← hβ, e1] at y3
    rw [hrow, y3] at y2
    have e2 : θ * ((A i i).b + α) = -(ε * c + β) := by rw [hθ]; exact div_mul_cancel₀ _ hpos.ne'
    have e3 : θ / B i i = ((A i i).a - α) * θ := by rw [hα, eM]; ring
    obtain ⟨x, hx, hxi⟩ := hull_point A b hA hb hc i y y1 ε (-ε) c (A i i).b hε (by rw [neg_mul_neg, hε]) hcb
      (Iv.mem_def.2 ⟨(hA i i).2, le_refl _⟩) (by
        rw [y3]
        rw [e3] at y2
        linear_combination -ε * e2 + ε * y2 + c * hε)
    refine ⟨x, hx, ?_⟩
    rw [hxi, y3, hθ]
    field_simp
    linear_combination (ε * c + β) * hε

/-- The quotient of `HBR` for a centred matrix is exactly the range of the component. -/
theorem hbr_component_range {n : ℕ} (A : Fin n → Fin n → Iv K) (b : Fin n → Iv K) (hA : ∀ i j, Ordinary (A i j))
    (hb : ∀ i, Ordinary (b i)) (hc : Centred A) (B : Fin n → Fin n → K)
    (hB : IsInverse (compmat A) B) (h0 : ∀ i j, 0 ≤ B i j) (i : Fin n) (Z : Iv K)
    (h : ((b i).add Rnd.exact (mkSym ((∑ j, B i j * (b j).mag) / B i i - (b i).mag))).div Rnd.exact
      ((A i i).add Rnd.exact (mkSym (compmat A i i + -1 / B i i))) = .ok Z) :
    IsRange Z (fun t => ∃ x, United A b x ∧ t = x i) := by
  have henc : ∀ x, United A b x → x i ∈ Z := fun x hx => (hbr_component Rnd.exact A b hA hb B hB h0 x hx i Z h).1
  obtain ⟨d0, d1⟩ := diag_pos A hA B hB h0 i
  have eM : compmat A i i = (A i i).a := by rw [compmat, if_pos rfl, mig_pos _ (hA i i) (hc.1 i)]
  have hend := hull_end A b hA hb hc B hB h0 i
  set β : K := (∑ j, B i j * (b j).mag) / B i i - (b i).mag with hβ
  set α : K := compmat A i i + -1 / B i i with hα
  have eα : α = (compmat A i i * B i i - 1) / B i i := by rw [hα]; field_simp; ring
  have α0 : 0 ≤ α := by rw [eα]; exact div_nonneg (by linarith) d0.le
  have β0 : 0 ≤ β := by
    rw [hβ, sub_nonneg, le_div_iff₀ d0]
    have := Finset.single_le_sum (f := fun j => B i j * (b j).mag)
      (fun j _ => mul_nonneg (h0 i j) (mag_nonneg _ (hb j))) (Finset.mem_univ i)
    linarith [this]
  have o1 := (mem_mkSym β 0 (by simpa using β0)).2
  have o2 := (mem_mkSym α 0 (by simpa using α0)).2
  have r := C11_div_range _ _ Z (C01_add_sub_ordinary Rnd.exact _ _ (hb i) o1).1
    (C01_add_sub_ordinary Rnd.exact _ _ (hA i i) o2).1 h
  have m1 : ∀ p, p ∈ (b i).add Rnd.exact (mkSym β) → (b i).a - β ≤ p ∧ p ≤ (b i).b + β := by
    intro p hp
    rw [mkSym, if_neg (by linarith), Iv.mem_def] at hp
    simp only [Iv.add, (hb i).1, Rnd.exact_dn, Rnd.exact_up, id] at hp
    exact ⟨by linarith [hp.1], hp.2⟩
  have m2 : ∀ q, q ∈ (A i i).add Rnd.exact (mkSym α) → (A i i).a - α ≤ q ∧ q ≤ (A i i).b + α := by
    intro q hq
    rw [mkSym, if_neg (by linarith), Iv.mem_def] at hq
    simp only [Iv.add, (hA i i).1, Rnd.exact_dn, Rnd.exact_up, id] at hq
    exact ⟨by linarith [hq.1], hq.2⟩
  have hlow : 0 < (A i i).a - α := by
    have : (A i i).a - α = 1 / B i i := by rw [hα, eM]; ring
    rw [this]
    exact one_div_pos.2 d0
  -- a bound for the quotients in one direction
  have bound : ∀ p q s : K, p ≤ s → (A i i).a - α ≤ q → q ≤ (A i i).b + α →
      p / q ≤ if 0 ≤ s then s / ((A i i).a - α) else s / ((A i i).b + α) := by
    intro p q s hp hq1 hq2
    have hq : 0 < q := hlow.trans_le hq1
    refine (div_le_div_of_nonneg_right hp hq.le).trans ?_
    split_ifs with hs
    · exact div_le_div_of_nonneg_left hs hlow hq1
    · push Not at hs
      rw [div_le_div_iff₀ hq (hq.trans_le hq2)]
      exact mul_le_mul_of_nonpos_left hq2 hs.le
  refine ⟨fun t ⟨x, hx, e⟩ => e ▸ henc x hx, ?_, ?_⟩
  · obtain ⟨x, hx, e⟩ := hend (-1) (b i).a (by ring) (Iv.mem_def.2 ⟨le_refl _, (hb i).2⟩)
    obtain ⟨p, hp, q, hq, epq⟩ := r.2.1
    have := bound (-p) q (-1 * (b i).a + β) (by linarith [(m1 p hp).1]) (m2 q hq).1 (m2 q hq).2
    rw [← e, neg_div, ← epq] at this
    exact ⟨x, hx, le_antisymm (Iv.mem_def.1 (henc x hx)).1 (by linarith)⟩
  · obtain ⟨x, hx, e⟩ := hend 1 (b i).b (by ring) (Iv.mem_def.2 ⟨(hb i).2, le_refl _⟩)
    obtain ⟨p, hp, q, hq, epq⟩ := r.2.2
    have := bound p q (1 * (b i).b + β) (by linarith [(m1 p hp).2]) (m2 q hq).1 (m2 q hq).2
    rw [← e, ← epq] at this
    exact ⟨x, hx, le_antisymm (by linarith) (Iv.mem_def.1 (henc x hx)).2⟩

/-- Preconditioning with the inverse of the midpoint puts the midpoint to the identity. -/
theorem preA_mid {n : ℕ} (A : Fin n → Fin n → Iv K) (hA : ∀ i j, Ordinary (A i j)) (C : Fin n → Fin n → K)
    (hC : IsInverse (fun i j => (A i j).mid Rnd.exact) C) (i j : Fin n) :
    (preA Rnd.exact C A i j).a + (preA Rnd.exact C A i j).b = 2 * if i = j then 1 else 0 := by
  have hr := mulVec_range C (fun k => A k j) (fun k => hA k j) i
  have refl : ∀ s, (∃ b', InVec b' (fun k => A k j) ∧ s = apply C b' i) →
      2 * (if i = j then 1 else 0) - s ∈ (Precond.point C).mulVec Rnd.exact (fun k => A k j) i := by
    rintro s ⟨Q, hQ, rfl⟩
    refine hr.1 _ ⟨fun k => 2 * (A k j).mid Rnd.exact - Q k, fun k => ?_, ?_⟩
    · obtain ⟨-, -, -, -, -, h1, h2, -⟩ := C20_characteristics _ (hA k j)
      obtain ⟨q1, q2⟩ := Iv.mem_def.1 (hQ k)
      exact Iv.mem_def.2 ⟨by linarith, by linarith⟩
    · rw [← hC.left i j, apply, apply, Finset.mul_sum, ← Finset.sum_sub_distrib]
      exact Finset.sum_congr rfl fun _ _ => by ring
  have e1 := (Iv.mem_def.1 (refl _ hr.2.1)).2
  have e2 := (Iv.mem_def.1 (refl _ hr.2.2)).1
  have d1 : (preA Rnd.exact C A i j).a = ((Precond.point C).mulVec Rnd.exact (fun k => A k j) i).a := rfl
  have d2 : (preA Rnd.exact C A i j).b = ((Precond.point C).mulVec Rnd.exact (fun k => A k j) i).b := rfl
  rw [d1, d2]
  linarith

/-- C124 (exact arithmetic and exact inverses): for a strongly regular matrix every component of the box returned by `HBR`
is exactly the range of that component over the solutions of the preconditioned system `C A x = C b`, where `C` is the inverse of the
midpoint. -/
theorem C124_preconditioned_hull {n : ℕ} (inv : (Fin n → Fin n → K) → Except Err (Fin n → Fin n → K))
    (hinv : InvExact inv) (A : Fin n → Fin n → Iv K) (b X : Fin n → Iv K) (hA : ∀ i j, Ordinary (A i j))
    (hb : ∀ i, Ordinary (b i)) (hS : StronglyRegular A) (h : hbr Rnd.exact inv A b = .ok X) :
    ∃ C, IsInverse (fun i j => (A i j).mid Rnd.exact) C ∧
      ∀ i, IsRange (X i) (fun t => ∃ x, United (preA Rnd.exact C A) ((Precond.point C).mulVec Rnd.exact b) x ∧ t = x i) := by
  unfold hbr at h
  split at h
  · cases h
  rename_i C hC
  have hCI := hinv _ _ hC
  refine ⟨C, hCI, fun i => ?_⟩
  dsimp only at h
  split at h
  · cases h
  rename_i B hB
  have hI := hinv _ _ hB
  obtain ⟨hA1, hb1⟩ := precond_ordinary Rnd.exact C A b hA hb
  have hN := (hS.invNonneg A hA C hCI).1 B hI
  have hcen : Centred (preA Rnd.exact C A) := by
    constructor
    · intro j
      obtain ⟨d0, d1⟩ := diag_pos _ hA1 B hI hN j
      have hm : 0 < compmat (preA Rnd.exact C A) j j := by
        by_contra hcon
        push Not at hcon
        nlinarith
      rw [compmat, if_pos rfl] at hm
      by_contra hneg
      push Not at hneg
      have hmid := preA_mid A hA C hCI j j
      rw [if_pos rfl] at hmid
      have := ((C20_characteristics _ (hA1 j j)).1 0 (Iv.mem_def.2 ⟨hneg, by linarith⟩)).1
      rw [abs_zero] at this
      linarith
    · intro j k hjk
      have hmid := preA_mid A hA C hCI j k
      rw [if_neg hjk] at hmid
      linarith
  split_ifs at h
  simp only [hbr_w_zero _ _ hI, mul_zero, Finset.sum_const_zero, add_zero, zero_sub, neg_neg] at h
  exact hbr_component_range _ _ hA1 hb1 hcen B hI hN i (X i) (allOk_spec _ _ h i)

/-- C124 (exact arithmetic and exact inverses): if the midpoint of a strongly regular matrix is the identity, the box
returned by `HBR` is the interval hull of the solution set. -/
theorem C124_hull {n : ℕ} (inv : (Fin n → Fin n → K) → Except Err (Fin n → Fin n → K))
    (hinv : InvExact inv) (A : Fin n → Fin n → Iv K) (b X : Fin n → Iv K) (hA : ∀ i j, Ordinary (A i j))
    (hb : ∀ i, Ordinary (b i)) (hS : StronglyRegular A) (hI : ∀ i j, (A i j).a + (A i j).b = if i = j then 2 else 0)
    (h : hbr Rnd.exact inv A b = .ok X) (i : Fin n) : IsRange (X i) (fun t => ∃ x, United A b x ∧ t = x i) := by
  obtain ⟨C, hC, hX⟩ := C124_preconditioned_hull inv hinv A b X hA hb hS h
  have emid : ∀ i j, (A i j).mid Rnd.exact = if i = j then 1 else 0 := by
    intro i j
    obtain ⟨-, -, -, -, -, h1, h2, -⟩ := C20_characteristics _ (hA i j)
    have := hI i j
    split_ifs at this ⊢ <;> linarith
  have eC : C = fun i j => if i = j then 1 else 0 := by
    funext i j
    have := hC i j
    simpa [emid] using this
  have app : ∀ (v : Fin n → K) i, apply C v i = v i := by
    intro v i
    simp [eC, apply]
  have same : ∀ (c : Fin n → Iv K), (∀ i, Ordinary (c i)) → ∀ i,
      ((Precond.point C).mulVec Rnd.exact c i).a = (c i).a ∧ ((Precond.point C).mulVec Rnd.exact c i).b = (c i).b := by
    intro c hc i
    have hr := mulVec_range C c hc i
    obtain ⟨v, hv, ev⟩ := hr.2.1
    obtain ⟨w, hw, ew⟩ := hr.2.2
    have la := Iv.mem_def.1 (hr.1 _ ⟨fun k => (c k).a, fun k => Iv.mem_def.2 ⟨le_refl _, (hc k).2⟩, (app _ i).symm⟩)
    have lb := Iv.mem_def.1 (hr.1 _ ⟨fun k => (c k).b, fun k => Iv.mem_def.2 ⟨(hc k).2, le_refl _⟩, (app _ i).symm⟩)
    rw [app] at ev ew
    exact ⟨le_antisymm la.1 (by rw [ev]; exact (Iv.mem_def.1 (hv i)).1), le_antisymm (by rw [ew]; exact (Iv.mem_def.1 (hw i)).2) lb.2⟩
  have hU : ∀ x, United (preA Rnd.exact C A) ((Precond.point C).mulVec Rnd.exact b) x ↔ United A b x := by
    intro x
    have mA : ∀ Q, InMat Q (preA Rnd.exact C A) ↔ InMat Q A := by
      intro Q
      refine forall_congr' fun i => forall_congr' fun j => ?_
      have : (preA Rnd.exact C A i j).a = (A i j).a ∧ (preA Rnd.exact C A i j).b = (A i j).b :=
        same (fun k => A k j) (fun k => hA k j) i
      rw [Iv.mem_def, Iv.mem_def, this.1, this.2]
    have mb : ∀ v, InVec v ((Precond.point C).mulVec Rnd.exact b) ↔ InVec v b := by
      intro v
      refine forall_congr' fun i => ?_
      rw [Iv.mem_def, Iv.mem_def, (same b hb i).1, (same b hb i).2]
    simp only [United, mA, mb]
  simpa only [hU] using hX i

/-! ### The hypotheses are satisfiable -/

/-- `hbrA` is strongly regular. -/
theorem hbrA_regular : StronglyRegular hbrA := by
  refine ⟨fun i j => if i = j then 1 else 0, fun _ => 1, fun _ => one_pos, fun Q hQ i => ?_⟩
  simp only [ite_mul, one_mul, zero_mul, Finset.sum_ite_eq, Finset.mem_univ, if_true, mul_one]
  have h00 := Iv.mem_def.1 (hQ 0 0)
  have h01 := Iv.mem_def.1 (hQ 0 1)
  have h10 := Iv.mem_def.1 (hQ 1 0)
  have h11 := Iv.mem_def.1 (hQ 1 1)
  simp [hbrA] at h00 h01 h10 h11
  have e0 : (Finset.univ.erase 0 : Finset (Fin 2)) = {1} := by decide
  have e1 : (Finset.univ.erase 1 : Finset (Fin 2)) = {0} := by decide
  have k0 : |Q 0 1| < |Q 0 0| := by
    refine lt_of_le_of_lt (abs_le.2 (⟨?_, ?_⟩ : -(1 / 2 : ℚ) ≤ Q 0 1 ∧ Q 0 1 ≤ 1 / 2)) ((?_ : (1 / 2 : ℚ) < Q 0 0).trans_le (le_abs_self _)) <;>
      linarith [h00.1, h01.1, h01.2]
  have k1 : |Q 1 0| < |Q 1 1| := by
    refine lt_of_le_of_lt (abs_le.2 (⟨?_, ?_⟩ : -(1 / 2 : ℚ) ≤ Q 1 0 ∧ Q 1 0 ≤ 1 / 2)) ((?_ : (1 / 2 : ℚ) < Q 1 1).trans_le (le_abs_self _)) <;>
      linarith [h11.1, h10.1, h10.2]
  rcases Fin.exists_fin_two.1 ⟨i, rfl⟩ with h | h
  · rw [h, e0, Finset.sum_singleton]; exact k0
  · rw [h, e1, Finset.sum_singleton]; exact k1

/-- For the system with `hbrA` and `hbrb` the box `[0, 8/3] x [6/5, 10/3]` is the hull: its ends are attained. -/
example : (∃ x, United hbrA hbrb x ∧ x 0 = 0) ∧ (∃ x, United hbrA hbrb x ∧ x 0 = 8/3) ∧ (∃ x, United hbrA hbrb x ∧ x 1 = 6/5) ∧
    ∃ x, United hbrA hbrb x ∧ x 1 = 10/3 := by
  have r0 : hbrRun 0 0 = some (0, 8/3) := by decide +kernel
  have r1 : hbrRun 0 1 = some (6/5, 10/3) := by decide +kernel
  unfold hbrRun at r0 r1
  cases hr : hbr Rnd.exact (hbrInv 0) hbrA hbrb with
  | error e => rw [hr] at r0; cases r0
  | ok X =>
    rw [hr] at r0 r1
    simp only [Option.some.injEq, Prod.mk.injEq] at r0 r1
    have key := C124_hull (hbrInv 0) hbrInv_exact hbrA hbrb X (by unfold Ordinary; decide +kernel) (by unfold Ordinary; decide +kernel)
      hbrA_regular (by decide +kernel) hr
    obtain ⟨-, ⟨x, hx, e1⟩, ⟨y, hy, e2⟩⟩ := key 0
    obtain ⟨-, ⟨z, hz, e3⟩, ⟨w, hw, e4⟩⟩ := key 1
    exact ⟨⟨x, hx, e1 ▸ r0.1⟩, ⟨y, hy, e2 ▸ r0.2⟩, ⟨z, hz, e3 ▸ r1.1⟩, ⟨w, hw, e4 ▸ r1.2⟩⟩

/-- Some exact routine inverts every invertible matrix. -/
example {n : ℕ} : ∃ inv : (Fin n → Fin n → ℚ) → Except Err (Fin n → Fin n → ℚ), InvExact inv ∧ InvComplete inv := by
  classical
  refine ⟨fun M => if h : ∃ B, IsInverse M B then .ok h.choose else .error .linAlgError, ?_, ?_⟩
  · intro M B h
    dsimp only at h
    split_ifs at h with h1
    cases h
    exact h1.choose_spec
  · intro M h
    exact ⟨_, dif_pos h⟩

/-! ## A matrix on the right (C123) -/

/-- The full property C123: every column of `HBR(A, b)` contains the solutions with the corresponding column of `b` on the right. -/
def C123_statement : Prop :=
  ∀ (n m : ℕ) (inv : (Fin n → Fin n → K) → Except Err (Fin n → Fin n → K)), InvExact inv →
    ∀ (A : Fin n → Fin n → Iv K) (b X : Fin n → Fin m → Iv K), (∀ i j, Ordinary (A i j)) → (∀ i k, Ordinary (b i k)) →
      StronglyRegular A → hbrMat Rnd.exact inv A b = .ok X → ∀ k x, United A (fun i => b i k) x → ∀ i, x i ∈ X i k

/-- The identity of size 2 as an interval matrix. -/
def hbrEye : Fin 2 → Fin 2 → Iv ℚ := fun i j => if i = j then ⟨.classical, 1, 1⟩ else ⟨.classical, 0, 0⟩

/-- The returned endpoints. -/
def hbrMatRun (i k : Fin 2) : Option (ℚ × ℚ) :=
  match hbrMat Rnd.exact (hbrInv 0) hbrEye hbrEye with
  | .ok X => some ((X i k).a, (X i k).b)
  | .error _ => none

/-- C123 is false: `HBR(I, I)` for the identity of size 2 returns `[1/4, 3/4]` on the diagonal. -/
theorem C123_matrix_right_false : ¬ C123_statement (K := ℚ) := by
  intro hst
  have r : hbrMatRun 0 0 = some (1/4, 3/4) := by decide +kernel
  unfold hbrMatRun at r
  cases hr : hbrMat Rnd.exact (hbrInv 0) hbrEye hbrEye with
  | error e => rw [hr] at r; cases r
  | ok X =>
    rw [hr] at r
    simp only [Option.some.injEq, Prod.mk.injEq] at r
    have hreg : StronglyRegular hbrEye := hbrA_regular.sub hbrA hbrEye (by decide +kernel)
    have := hst 2 2 (hbrInv 0) hbrInv_exact hbrEye hbrEye X (by unfold Ordinary; decide +kernel) (by unfold Ordinary; decide +kernel)
      hreg hr 0 ![1, 0] ⟨fun i j => if i = j then 1 else 0, fun i j => by rw [Iv.mem_def]; revert i j; decide +kernel,
        ![1, 0], fun i => by rw [Iv.mem_def]; revert i; decide +kernel, by decide +kernel⟩ 0
    rw [Iv.mem_def, r.2] at this
    have h1 : (![1, 0] : Fin 2 → ℚ) 0 = 1 := rfl
    rw [h1] at this
    norm_num at this

/-- C123 for one equation.  Missing: two and more equations, where the property is false (`C123_matrix_right_false`). -/
theorem C123_one_equation_partial {m : ℕ} (inv : (Fin 1 → Fin 1 → K) → Except Err (Fin 1 → Fin 1 → K)) (hinv : InvExact inv)
    (A : Fin 1 → Fin 1 → Iv K) (b X : Fin 1 → Fin m → Iv K) (hA : ∀ i j, Ordinary (A i j)) (hb : ∀ i k, Ordinary (b i k))
    (h : hbrMat Rnd.exact inv A b = .ok X) (k : Fin m) (x : Fin 1 → K) (hx : United A (fun i => b i k) x) (i : Fin 1) :
    x i ∈ X i k := by
  unfold hbrMat at h
  split at h
  · cases h
  rename_i C hC
  dsimp only at h
  split at h
  · cases h
  rename_i B hB
  have hI := hinv _ _ hB
  obtain ⟨hA1, hb1⟩ := precond_ordinary Rnd.exact C A (fun i => b i k) hA fun i => hb i k
  obtain ⟨⟨A', hA', b', hb', he⟩, -, -⟩ := precond_solution Rnd.exact (.point C) A (fun i => b i k) (fun D hD => by cases hD) hA
    (fun i => hb i k) x hx
  split_ifs at h with h1 h2
  split at h
  · cases h
  rename_i q hq
  cases h
  have hi : i = 0 := Subsingleton.elim _ _
  subst hi
  have hI0 := hI 0 0
  simp only [Fin.sum_univ_one, if_true] at hI0
  have B0 : B 0 0 ≠ 0 := right_ne_zero_of_mul_eq_one hI0
  simp only [hbr_w_zero _ _ hI, mul_zero, Finset.sum_const_zero, add_zero] at hq ⊢
  simp only [Fin.sum_univ_one] at hq ⊢
  have eα : compmat ((Precond.point C).mulMat Rnd.exact A) 0 0 + -1 / B 0 0 = 0 := by
    field_simp
    linarith
  have eβ : B 0 0 * ((Precond.point C).mulMat Rnd.exact b 0 k).mag / B 0 0 - ((Precond.point C).mulMat Rnd.exact b 0 k).mag = 0 := by
    field_simp
    ring
  have hs : mkSym (0 : K) = ⟨.classical, 0, 0⟩ := by simp [mkSym]
  have o0 : Ordinary (⟨.classical, 0, 0⟩ : Iv K) := ⟨rfl, le_refl _⟩
  have hA0 : Ordinary ((Precond.point C).mulMat Rnd.exact A 0 0) := hA1 0 0
  have hb0 : Ordinary ((Precond.point C).mulMat Rnd.exact b 0 k) := hb1 0
  have oA := (C01_add_sub_ordinary Rnd.exact _ _ hA0 o0).1
  have hz : ¬ (0 : K) ∈ (Precond.point C).mulMat Rnd.exact A 0 0 := by
    intro hz
    have h1 := ((C20_characteristics _ hA0).1 0 hz).1
    have h2 : 0 ≤ ((Precond.point C).mulMat Rnd.exact A 0 0).mig := by
      obtain ⟨y, -, e⟩ := (C20_characteristics _ hA0).2.1
      rw [← e]; exact abs_nonneg _
    rw [abs_zero] at h1
    have : compmat ((Precond.point C).mulMat Rnd.exact A) 0 0 = 0 := by rw [compmat, if_pos rfl]; exact le_antisymm h1 h2
    rw [this, zero_mul] at hI0
    exact zero_ne_one hI0
  have eD : dotEntry (dotIN Rnd.exact (List.ofFn fun i : Fin 1 => ((Precond.point C).mulMat Rnd.exact A i i).add Rnd.exact
      (mkSym (compmat ((Precond.point C).mulMat Rnd.exact A) i i + -1 / B i i))) (List.ofFn fun _ : Fin 1 => (1 : K)))
      = (((Precond.point C).mulMat Rnd.exact A 0 0).add Rnd.exact ⟨.classical, 0, 0⟩).mulNum Rnd.exact 1 := by
    simp only [List.ofFn_succ, List.ofFn_zero, dotIN, objDot, List.zipWith, List.foldl, dotEntry, Option.getD_some, eα, hs]
  rw [eD] at hq
  rw [eβ, hs]
  have app : apply A' x 0 = A' 0 0 * x 0 := by simp [apply]
  have he0 := he 0
  rw [app] at he0
  have add0 : ∀ X : Iv K, Ordinary X → X.add Rnd.exact ⟨.classical, 0, 0⟩ = X := by
    intro X hX
    rcases X with ⟨cl, p, q⟩
    obtain ⟨rfl, -⟩ := hX
    simp [Iv.add]
  have mul1 : ∀ X : Iv K, Ordinary X → X.mulNum Rnd.exact 1 = X := by
    intro X hX
    rcases X with ⟨cl, p, q⟩
    obtain ⟨rfl, hpq⟩ := hX
    simp only [Iv.mulNum, Iv.rmul, one_mul, Rnd.exact_dn, Rnd.exact_up, id, min_eq_left hpq, max_eq_right hpq]
  rw [add0 _ hA0, mul1 _ hA0] at hq
  rw [add0 _ hb0]
  obtain ⟨oq, mq⟩ := recip_mem Rnd.exact hA0 hz hq
  have hne : A' 0 0 ≠ 0 := fun e => hz (e ▸ hA' 0 0)
  refine C02_mul_encloses Rnd.exact _ _ hb0 oq _ ⟨b' 0, hb' 0, 1 / A' 0 0, mq _ (hA' 0 0), ?_⟩
  rw [← he0]
  field_simp

/-- The hypotheses of `C123_one_equation_partial` are satisfiable: `[1, 3] x = 4` and `[1, 3] x = [-2, 2]`. -/
example : InvExact (fun M : Fin 1 → Fin 1 → ℚ => if M 0 0 = 0 then .error .linAlgError else .ok fun _ _ => 1 / M 0 0) ∧
    (match hbrMat Rnd.exact (fun M : Fin 1 → Fin 1 → ℚ => if M 0 0 = 0 then .error .linAlgError else .ok fun _ _ => 1 / M 0 0)
      (fun _ _ => ⟨.classical, 1, 3⟩) (![![⟨.classical, 4, 4⟩, ⟨.classical, -2, 2⟩]] : Fin 1 → Fin 2 → Iv ℚ) with
    | .ok X => some (((X 0 0).a, (X 0 0).b), (X 0 1).a, (X 0 1).b)
    | .error _ => none) = some ((4/3, 4), -2, 2) := by
  refine ⟨fun M B h => ?_, by decide +kernel⟩
  dsimp only at h
  split_ifs at h with h0
  cases h
  intro i j
  have : i = 0 := Subsingleton.elim _ _
  subst this
  have : j = 0 := Subsingleton.elim _ _
  subst this
  simp only [Fin.sum_univ_one, if_true]
  field_simp

/-- `HBR(A, B)` with a matrix on the right refuses the system with `AssertionError` exactly when no component of `<A'> |<A'>⁻¹ e|` is
positive, whatever the right-hand side, where `<A'>` is the comparison matrix of the preconditioned matrix and `e` is the vector of
ones. -/
theorem C123_refuses_iff {n m : ℕ} (inv : (Fin n → Fin n → K) → Except Err (Fin n → Fin n → K)) (A : Fin n → Fin n → Iv K)
    (b : Fin n → Fin m → Iv K) (C B : Fin n → Fin n → K) (hC : inv (fun i j => (A i j).mid Rnd.exact) = .ok C)
    (hB : inv (compmat (preA Rnd.exact C A)) = .ok B) :
    hbrMat Rnd.exact inv A b = .error .assertionError ↔
      ∀ i, ∑ j, compmat (preA Rnd.exact C A) i j * |∑ l, B j l| ≤ 0 := by
  unfold preA at hB
  unfold hbrMat preA
  rw [hC]
  dsimp only
  rw [hB]
  dsimp only
  constructor
  · intro h i
    by_contra hi
    rw [if_pos (by rw [List.any_eq_true]; exact ⟨i, List.mem_finRange i, decide_eq_true (not_le.mp hi)⟩)] at h
    split_ifs at h
    · cases h
    · split at h
      · rename_i e he
        unfold Iv.recip at he
        split_ifs at he <;> cases he <;> cases h
      · cases h
  · intro h
    rw [if_neg]
    rw [List.any_eq_true]
    rintro ⟨i, -, hi⟩
    exact absurd (of_decide_eq_true hi) (not_lt.mpr (h i))

/-- One positive component is enough: in the first line the components are 1, -1, -1 and an array is returned; the system `2 x = [2, 4]`, for which the sum of the diagonal is 1, is solved; and with a zero row nothing is positive. -/
example :
    (match hbrMat (n := 3) (m := 1) Rnd.exact (fun M => if M 1 1 = M 1 2 + 1 then .ok fun i j => if i = j then 1 else 0
        else .ok ![![1, 0, 0], ![0, -1/3, -2/3], ![0, -2/3, -1/3]])
      (fun i j => if i = j then ⟨.classical, 1, 1⟩ else if i = 0 ∨ j = 0 then ⟨.classical, 0, 0⟩ else ⟨.classical, -2, 2⟩)
      (fun _ _ => (⟨.classical, 1, 1⟩ : Iv ℚ)) with
    | .ok _ => true | .error _ => false) = true ∧
    (match hbrMat (n := 1) (m := 1) Rnd.exact (fun M => .ok fun _ _ => 1 / M 0 0) (fun _ _ => ⟨.classical, 2, 2⟩)
      (fun _ _ => (⟨.classical, 2, 4⟩ : Iv ℚ)) with
    | .ok X => some ((X 0 0).a, (X 0 0).b) | .error _ => none) = some (1, 2) ∧
    (match hbrMat (n := 1) (m := 1) Rnd.exact (fun _ => .ok fun _ _ => 1) (fun _ _ => ⟨.classical, -2, 3⟩)
      (fun _ _ => (⟨.classical, 2, 4⟩ : Iv ℚ)) with
    | .ok _ => none | .error e => some e) = some .assertionError := by
  decide +kernel

/-- The second inverse is computed inexactly (0.9 in place of 1): the correction `B + v @ w` restores 1, and the sum of the diagonal is that of the corrected matrix. -/
example :
    (match hbrMat (n := 1) (m := 1) Rnd.exact (fun M => if M 0 0 = 2 then .ok fun _ _ => 1 / 2 else .ok fun _ _ => 9 / 10)
      (fun _ _ => ⟨.classical, 2, 2⟩) (fun _ _ => (⟨.classical, 2, 4⟩ : Iv ℚ)) with
    | .ok X => some ((X 0 0).a, (X 0 0).b) | .error _ => none) = some (1, 2) := by
  decide +kernel

end IntvalPy
