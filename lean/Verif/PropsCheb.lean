import Verif.PropsRecFun
import Verif.PropsObjects

/-!
# C46, C69: ChebNorm
-/

set_option autoImplicit false
set_option linter.unusedSectionVars false

namespace IntvalPy
open Spec

variable {K : Type*} [Field K] [LinearOrder K] [IsStrictOrderedRing K] {m n : ℕ}

/-- What is assumed of the external solver: it returns a minimiser over the box. -/
def IsBoxLP (lp : (Fin n → K) → (Fin n → K) → (Fin n → K) → Fin n → K) : Prop :=
  ∀ c lo hi : Fin n → K, (∀ j, lo j ≤ hi j) → (∀ j, lo j ≤ lp c lo hi j ∧ lp c lo hi j ≤ hi j) ∧
    ∀ a : Fin n → K, (∀ j, lo j ≤ a j ∧ a j ≤ hi j) → ∑ j, c j * lp c lo hi j ≤ ∑ j, c j * a j

/-- A solver that satisfies the assumption. -/
def cornerLP (c lo hi : Fin n → K) (j : Fin n) : K := if 0 ≤ c j then lo j else hi j

theorem cornerLP_isBoxLP : IsBoxLP (cornerLP : (Fin n → K) → (Fin n → K) → (Fin n → K) → Fin n → K) := by
  intro c lo hi h
  refine ⟨fun j => ?_, fun a ha => Finset.sum_le_sum fun j _ => ?_⟩
  · unfold cornerLP; split_ifs
    · exact ⟨le_refl _, h j⟩
    · exact ⟨h j, le_refl _⟩
  · unfold cornerLP; split_ifs with hc
    · exact mul_le_mul_of_nonneg_left (ha j).1 hc
    · exact mul_le_mul_of_nonpos_left (ha j).2 (not_le.mp hc).le

/-- `v` is the greatest weighted residual `w_i |b'_i - (A' x)_i|` over all rows, `A'` in `A`, `b'` in `b`. -/
def IsWorstResidual (A : Fin m → Fin n → Iv K) (b : Fin m → Iv K) (w : Fin m → K) (x : Fin n → K) (v : K) : Prop :=
  (∀ A' b', InMat A' A → InVec b' b → ∀ i, w i * |b' i - apply A' x i| ≤ v) ∧
  ∃ A' b', InMat A' A ∧ InVec b' b ∧ ∃ i, w i * |b' i - apply A' x i| = v

/-- C46 (full statement, false of the code). -/
def C46_statement (K : Type*) [Field K] [LinearOrder K] : Prop :=
  ∀ (m n : ℕ) (lp : (Fin n → K) → (Fin n → K) → (Fin n → K) → Fin n → K) (A : Fin m → Fin n → Iv K) (b : Fin m → Iv K)
    (w : Fin m → K) (x : Fin n → K) (v : K), IsBoxLP lp → (∀ i j, Ordinary (A i j)) → (∀ i, Ordinary (b i)) →
    (∀ i, 0 < w i) → chebValue lp A b w x = .ok v → IsWorstResidual A b w x v

/-- C46 is false of the code: for `[1,3] x = 0` at `x = 1` the value 1 is reported, the worst residual is 3. -/
theorem C46_cheb_false : ¬ C46_statement ℚ := by
  intro h
  have hO : ∀ (i : Fin 1) (j : Fin 1), Ordinary ((fun _ _ => ⟨.classical, 1, 3⟩ : Fin 1 → Fin 1 → Iv ℚ) i j) :=
    fun _ _ => ⟨rfl, by norm_num⟩
  have := h 1 1 cornerLP (fun _ _ => ⟨.classical, 1, 3⟩) (fun _ => ⟨.classical, 0, 0⟩) (fun _ => 1) (fun _ => 1) 1
    cornerLP_isBoxLP hO (fun _ => ⟨rfl, le_refl _⟩) (fun _ => one_pos) (by decide +kernel)
  have := this.1 (fun _ _ => 3) (fun _ => 0) (fun _ _ => ⟨by norm_num, by norm_num⟩)
    (fun _ => ⟨le_refl _, le_refl _⟩) 0
  norm_num [apply] at this

theorem dotF_comm (a x : Fin n → K) : dotF a x = ∑ j, x j * a j :=
  Finset.sum_congr rfl fun j _ => mul_comm _ _

/-- The two candidate rows attain the bounds of the row product. -/
theorem lp_bounds (lp : (Fin n → K) → (Fin n → K) → (Fin n → K) → Fin n → K) (hlp : IsBoxLP lp) (hn : 0 < n)
    (row : Fin n → Iv K) (hrow : ∀ j, Ordinary (row j)) (x : Fin n → K) :
    let lo := fun j => (row j).a
    let hi := fun j => (row j).b
    (∀ j, lp x lo hi j ∈ row j) ∧ (∀ j, lp (fun j => -(x j)) lo hi j ∈ row j) ∧
    dotF (lp x lo hi) x = rowMid row x - rowRad row x ∧
    dotF (lp (fun j => -(x j)) lo hi) x = rowMid row x + rowRad row x := by
  intro lo hi
  obtain ⟨h1, h2⟩ := hlp x lo hi fun j => (hrow j).2
  obtain ⟨h3, h4⟩ := hlp (fun j => -(x j)) lo hi fun j => (hrow j).2
  have hr := rowRad_nonneg hrow x
  refine ⟨h1, h3, le_antisymm ?_ ?_, le_antisymm ?_ ?_⟩
  · obtain ⟨A', hA', e⟩ := (row_values row x hn hrow (rowMid row x - rowRad row x)).mpr ⟨le_refl _, by linarith⟩
    have := h2 A' hA'
    rw [← dotF_comm, ← dotF_comm] at this
    exact this.trans (le_of_eq e)
  · exact ((row_values row x hn hrow _).mp ⟨_, h1, rfl⟩).1
  · exact ((row_values row x hn hrow _).mp ⟨_, h3, rfl⟩).2
  · obtain ⟨A', hA', e⟩ := (row_values row x hn hrow (rowMid row x + rowRad row x)).mpr ⟨by linarith, le_refl _⟩
    have := h4 A' hA'
    have e2 : ∀ a : Fin n → K, ∑ j, -(x j) * a j = -(dotF a x) := by
      intro a
      rw [dotF_comm, ← Finset.sum_neg_distrib]
      exact Finset.sum_congr rfl fun j _ => by ring
    rw [e2, e2] at this
    have e' : dotF A' x = rowMid row x + rowRad row x := e
    linarith

/-- C46, partial: the value never exceeds the worst residual, and equals it when for every row either the midpoint
of the right-hand side lies at or above the midpoint of the row product and is at least minus its radius, or at or
below and less than minus the radius (the two cases in which the faulty test picks the right row).
Missing: the other systems, for which the property fails. -/
theorem C46_cheb_partial (hm : 0 < m) (hn : 0 < n) (lp : (Fin n → K) → (Fin n → K) → (Fin n → K) → Fin n → K)
    (hlp : IsBoxLP lp) (A : Fin m → Fin n → Iv K) (b : Fin m → Iv K) (w : Fin m → K) (x : Fin n → K)
    (hA : ∀ i j, Ordinary (A i j)) (hb : ∀ i, Ordinary (b i)) (hw : ∀ i, 0 < w i) :
    ∃ v, chebValue lp A b w x = .ok v ∧
      (∃ A' b', InMat A' A ∧ InVec b' b ∧ ∃ i, w i * |b' i - apply A' x i| = v) ∧
      ((∀ i, (-(rowRad (A i) x) ≤ (b i).mid Rnd.exact ∧ rowMid (A i) x ≤ (b i).mid Rnd.exact) ∨
        ((b i).mid Rnd.exact < -(rowRad (A i) x) ∧ (b i).mid Rnd.exact ≤ rowMid (A i) x)) →
        IsWorstResidual A b w x v) := by
  have hrowdef : ∀ i, ∃ r, chebRow lp x (fun j => (A i j).a) (fun j => (A i j).b) ((b i).mid Rnd.exact) = r ∧
      (∀ j, r j ∈ A i j) ∧
      (((-(rowRad (A i) x) ≤ (b i).mid Rnd.exact) ∧ dotF r x = rowMid (A i) x - rowRad (A i) x) ∨
       (((b i).mid Rnd.exact < -(rowRad (A i) x)) ∧ dotF r x = rowMid (A i) x + rowRad (A i) x)) := by
    intro i
    obtain ⟨l1, l2, l3, l4⟩ := lp_bounds lp hlp hn (A i) (hA i) x
    have e : dotF (lp (fun j => -(x j)) (fun j => (A i j).a) (fun j => (A i j).b)) (fun j => -(x j))
        = -(rowMid (A i) x + rowRad (A i) x) := by
      rw [← l4]
      simp [dotF, Finset.sum_neg_distrib]
    refine ⟨_, rfl, ?_⟩
    rw [chebRow]
    simp only [e, l3]
    split_ifs with hc
    · exact ⟨l1, Or.inl ⟨by linarith, l3⟩⟩
    · exact ⟨l2, Or.inr ⟨by linarith, l4⟩⟩
  obtain ⟨v, hv⟩ := npAmax_ok (l := List.ofFn (chebArr lp (recData A b w) x)) (by
    intro h
    have := congrArg List.length h
    simp at this
    omega)
  obtain ⟨v1, v2⟩ := npAmax_spec hv
  have harr : ∀ i, chebArr lp (recData A b w) x i = w i * ((b i).rad Rnd.exact + |(b i).mid Rnd.exact -
      dotF (chebRow lp x (fun j => (A i j).a) (fun j => (A i j).b) ((b i).mid Rnd.exact)) x|) := fun i => rfl
  have hatt : ∃ A' b', InMat A' A ∧ InVec b' b ∧ ∃ i, w i * |b' i - apply A' x i| = v := by
    obtain ⟨i, hi⟩ := (List.mem_ofFn' _ _).mp v1
    choose r hr1 hr2 _ using hrowdef
    have hrb := rad_nonneg (hb i)
    have hbi : ∃ bi, bi ∈ b i ∧ |bi - dotF (r i) x| = (b i).rad Rnd.exact + |(b i).mid Rnd.exact - dotF (r i) x| := by
      rcases le_total 0 ((b i).mid Rnd.exact - dotF (r i) x) with h | h
      · refine ⟨(b i).b, ⟨(hb i).2, le_refl _⟩, ?_⟩
        rw [← mid_add_rad, abs_of_nonneg h, abs_of_nonneg (by linarith)]; ring
      · refine ⟨(b i).a, ⟨le_refl _, (hb i).2⟩, ?_⟩
        rw [← mid_sub_rad, abs_of_nonpos h, abs_of_nonpos (by linarith)]; ring
    obtain ⟨bi, hbi1, hbi2⟩ := hbi
    refine ⟨r, fun k => if k = i then bi else (b k).a, hr2, ?_, i, ?_⟩
    · intro k
      by_cases hk : k = i
      · subst hk; simpa using hbi1
      · simpa [hk] using memL (hb k)
    · rw [← hi, harr, hr1, ← hbi2]
      simp only [if_true]
      rfl
  refine ⟨v, hv, hatt, fun hcond => ⟨?_, hatt⟩⟩
  intro A' b' hA' hb' i
  have hvi := v2 _ ((List.mem_ofFn' _ _).mpr ⟨i, rfl⟩)
  refine le_trans ?_ hvi
  rw [harr]
  obtain ⟨r, hr1, hr2, hr3⟩ := hrowdef i
  rw [hr1]
  apply mul_le_mul_of_nonneg_left _ (hw i).le
  obtain ⟨q1, q2⟩ := (row_values (A i) x hn (hA i) _).mp ⟨A' i, hA' i, rfl⟩
  obtain ⟨s1, s2⟩ := hb' i
  rw [← mid_sub_rad] at s1
  rw [← mid_add_rad] at s2
  have hr := rowRad_nonneg (hA i) x
  change rowMid (A i) x - rowRad (A i) x ≤ apply A' x i at q1
  change apply A' x i ≤ rowMid (A i) x + rowRad (A i) x at q2
  rw [abs_le]
  rcases hr3 with ⟨c1, c2⟩ | ⟨c1, c2⟩
  · have c3 : rowMid (A i) x ≤ (b i).mid Rnd.exact := by
      rcases hcond i with h | h
      · exact h.2
      · linarith [h.1]
    rw [c2, abs_of_nonneg (by linarith)]
    constructor <;> linarith
  · have c3 : (b i).mid Rnd.exact ≤ rowMid (A i) x := by
      rcases hcond i with h | h
      · linarith [h.1]
      · exact h.2
    rw [c2, abs_of_nonpos (by linarith)]
    constructor <;> linarith

/-- `[1,3] x = [4,6]` at `x = 1`: worst residual 5. -/
example : chebValue cornerLP (fun _ _ => ⟨.classical, 1, 3⟩ : Fin 1 → Fin 1 → Iv ℚ) (fun _ => ⟨.classical, 4, 6⟩)
    (fun _ => 1) (fun _ => 1) = .ok 5 := by decide +kernel

/-! ## C69 -/

/-- C69 (full statement, false of the code): the pair handed to the optimiser is a value and a subgradient of the
reported functional. -/
def C69_statement (K : Type*) [Field K] [LinearOrder K] : Prop :=
  ∀ (m n : ℕ) (lp : (Fin n → K) → (Fin n → K) → (Fin n → K) → Fin n → K) (A : Fin m → Fin n → Iv K) (b : Fin m → Iv K)
    (w : Fin m → K) (x y : Fin n → K) (f : K) (g : Fin n → K) (v : K), IsBoxLP lp → (∀ i j, Ordinary (A i j)) →
    (∀ i, Ordinary (b i)) → (∀ i, 0 < w i) → chebCalcfg lp (recData A b w) x = .ok (f, g) →
    chebValue lp A b w y = .ok v → f + ∑ j, g j * (y j - x j) ≤ v

/-- C69 is false of the code: for the point equation `x = 0` with weight 2, at `x = 1`, the gradient is 1 instead
of 2 (the weight is forgotten), so the minimum at 0 violates the subgradient inequality. -/
theorem C69_cheb_gradient_false : ¬ C69_statement ℚ := by
  intro h
  have h0 : npArgmax (chebArr cornerLP (recData (fun _ _ => ⟨.classical, 1, 1⟩ : Fin 1 → Fin 1 → Iv ℚ)
      (fun _ => ⟨.classical, 0, 0⟩) (fun _ => 2)) (fun _ => 1)) = .ok 0 := by decide +kernel
  have := h 1 1 cornerLP (fun _ _ => ⟨.classical, 1, 1⟩) (fun _ => ⟨.classical, 0, 0⟩) (fun _ => 2) (fun _ => 1)
    (fun _ => 0) _ _ 0 cornerLP_isBoxLP (fun _ _ => ⟨rfl, le_refl _⟩) (fun _ => ⟨rfl, le_refl _⟩)
    (fun _ => two_pos) (by rw [chebCalcfg, h0]) (by decide +kernel)
  revert this
  decide +kernel

/-- C69, partial: a subgradient for point matrices and unit weights.
Missing: interval matrices (the functional reported is not convex, see C46) and weights different from 1. -/
theorem C69_cheb_gradient_partial (hn : 0 < n) (lp : (Fin n → K) → (Fin n → K) → (Fin n → K) → Fin n → K)
    (hlp : IsBoxLP lp) (A : Fin m → Fin n → Iv K) (b : Fin m → Iv K) (x y : Fin n → K) (f : K) (g : Fin n → K) (v : K)
    (hA : ∀ i j, Ordinary (A i j)) (hpt : ∀ i j, (A i j).a = (A i j).b)
    (h : chebCalcfg lp (recData A b fun _ => 1) x = .ok (f, g)) (hv : chebValue lp A b (fun _ => 1) y = .ok v) :
    f + ∑ j, g j * (y j - x j) ≤ v := by
  have hrow : ∀ (i : Fin m) (z : Fin n → K), chebRow lp z (fun j => (A i j).a) (fun j => (A i j).b)
      ((b i).mid Rnd.exact) = fun j => (A i j).a := by
    intro i z
    have : ∀ c : Fin n → K, lp c (fun j => (A i j).a) (fun j => (A i j).b) = fun j => (A i j).a := by
      intro c
      funext j
      have := (hlp c (fun j => (A i j).a) (fun j => (A i j).b) fun j => (hA i j).2).1 j
      exact le_antisymm (by rw [hpt i j]; exact this.2) this.1
    rw [chebRow]
    simp only [this, ite_self]
  rw [chebCalcfg] at h
  cases hmc : npArgmax (chebArr lp (recData A b fun _ => 1) x) with
  | error e => rw [hmc] at h; cases h
  | ok i =>
    rw [hmc] at h
    simp only [Except.ok.injEq, Prod.mk.injEq] at h
    obtain ⟨rfl, rfl⟩ := h
    have hvi := (npAmax_spec hv).2 _ ((List.mem_ofFn' _ _).mpr ⟨i, rfl⟩)
    refine le_trans ?_ hvi
    have harr : ∀ z, chebArr lp (recData A b fun _ => 1) z i = (b i).rad Rnd.exact + |(b i).mid Rnd.exact -
        dotF (fun j => (A i j).a) z| := by
      intro z
      rw [← hrow i z]
      exact one_mul _
    have hrow' : chebRow lp x ((recData A b fun _ => 1).infA i) ((recData A b fun _ => 1).supA i)
      ((recData A b fun _ => 1).bm i) = fun j => (A i j).a := hrow i x
    rw [harr, harr, hrow']
    have hsum : ∑ j, (A i j).a * npSign (dotF (fun j => (A i j).a) x - (recData A b fun _ => 1).bm i) * (y j - x j)
        = npSign (dotF (fun j => (A i j).a) x - (b i).mid Rnd.exact) *
          (dotF (fun j => (A i j).a) y - dotF (fun j => (A i j).a) x) := by
      rw [dotF, dotF, ← Finset.sum_sub_distrib, Finset.mul_sum]
      exact Finset.sum_congr rfl fun j _ => by
        change _ * npSign (∑ j, (A i j).a * x j - (b i).mid Rnd.exact) * _ = _
        ring
    rw [hsum]
    generalize dotF (fun j => (A i j).a) x = p
    generalize dotF (fun j => (A i j).a) y = q
    generalize (b i).mid Rnd.exact = c
    unfold npSign
    split_ifs with h1 h2
    · rw [abs_of_neg (by linarith)]
      have := neg_le_abs (c - q)
      linarith
    · rw [abs_of_pos (by linarith)]
      have := le_abs_self (c - q)
      linarith
    · have : p = c := by linarith
      rw [this]
      simp

example : (chebCalcfg cornerLP (recData (fun _ _ => ⟨.classical, 2, 2⟩ : Fin 1 → Fin 1 → Iv ℚ)
    (fun _ => ⟨.classical, 0, 1⟩) (fun _ => 1)) (fun _ => 3)).map (fun r => (r.1, r.2 0)) = .ok (6, 2) := by
  decide +kernel

end IntvalPy
