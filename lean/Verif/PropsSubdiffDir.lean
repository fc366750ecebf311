import Verif.PropsSubdiff
import Verif.SpecRecFun
import Mathlib.Tactic.LinearCombination

/-!
# C143: on which side of the equations the result of `Subdiff` lies

The ends of a Kaucher product with a proper factor are minima and maxima of linear functions of the ends of the other
factor, and `calcSubgrad` picks one of these functions.  A full Newton step therefore lands where the left-hand side
contains the right-hand side (proper matrices) or is contained in it (improper ones), converged or not.
-/

set_option autoImplicit false
set_option linter.unusedSectionVars false

namespace IntvalPy
open Spec
variable {K : Type*} [Field K] [LinearOrder K] [IsStrictOrderedRing K]

/-! ## Specification -/

/-- `b ⊆ A X` in every row, the products being Kaucher's. -/
def RightInside {n : Nat} (A : Fin n → Fin n → Iv K) (X b : Fin n → Iv K) : Prop :=
  ∀ i, ∃ U V : Fin n → K, (∀ j, IsKaucherProduct (A i j) (X j) (U j) (V j)) ∧
    ∑ j, U j ≤ (b i).a ∧ (b i).b ≤ ∑ j, V j

/-- `A X ⊆ b` in every row, the products being Kaucher's. -/
def LeftInside {n : Nat} (A : Fin n → Fin n → Iv K) (X b : Fin n → Iv K) : Prop :=
  ∀ i, ∃ U V : Fin n → K, (∀ j, IsKaucherProduct (A i j) (X j) (U j) (V j)) ∧
    (b i).a ≤ ∑ j, U j ∧ ∑ j, V j ≤ (b i).b

/-! ## The slopes of a block -/

theorem loAt_of_pos (y : Iv K) {t : K} (h : 0 ≤ t) : loAt y t = t * y.a := by
  unfold loAt
  split_ifs with hy
  · exact min_eq_left (mul_le_mul_of_nonneg_left hy h)
  · exact max_eq_left (mul_le_mul_of_nonneg_left (not_le.1 hy).le h)

theorem loAt_of_neg (y : Iv K) {t : K} (h : t ≤ 0) : loAt y t = t * y.b := by
  unfold loAt
  split_ifs with hy
  · exact min_eq_right (mul_le_mul_of_nonpos_left hy h)
  · exact max_eq_right (mul_le_mul_of_nonpos_left (not_le.1 hy).le h)

theorem hiAt_of_pos (y : Iv K) {t : K} (h : 0 ≤ t) : hiAt y t = t * y.b := by
  unfold hiAt
  split_ifs with hy
  · exact max_eq_right (mul_le_mul_of_nonneg_left hy h)
  · exact min_eq_right (mul_le_mul_of_nonneg_left (not_le.1 hy).le h)

theorem hiAt_of_neg (y : Iv K) {t : K} (h : t ≤ 0) : hiAt y t = t * y.a := by
  unfold hiAt
  split_ifs with hy
  · exact max_eq_left (mul_le_mul_of_nonpos_left hy h)
  · exact min_eq_left (mul_le_mul_of_nonpos_left (not_le.1 hy).le h)

theorem between_a (g : Iv K) : Between g g.a := ⟨min_le_left _ _, le_max_left _ _⟩
theorem between_b (g : Iv K) : Between g g.b := ⟨min_le_right _ _, le_max_right _ _⟩

/-- A slope of the lower half: `t` on the lower end for nonnegative `t`, on the upper end for nonpositive. -/
def LoSlope (g : Iv K) (p q : K) : Prop := ∃ t, Between g t ∧ ∀ y : Iv K, p * y.a + q * y.b = loAt y t
def HiSlope (g : Iv K) (p q : K) : Prop := ∃ t, Between g t ∧ ∀ y : Iv K, p * y.a + q * y.b = hiAt y t

theorem LoSlope.pos {g : Iv K} {t : K} (h : Between g t) (h0 : 0 ≤ t) : LoSlope g t 0 :=
  ⟨t, h, fun y => by rw [loAt_of_pos y h0]; ring⟩
theorem LoSlope.neg {g : Iv K} {t : K} (h : Between g t) (h0 : t ≤ 0) : LoSlope g 0 t :=
  ⟨t, h, fun y => by rw [loAt_of_neg y h0]; ring⟩
theorem HiSlope.pos {g : Iv K} {t : K} (h : Between g t) (h0 : 0 ≤ t) : HiSlope g 0 t :=
  ⟨t, h, fun y => by rw [hiAt_of_pos y h0]; ring⟩
theorem HiSlope.neg {g : Iv K} {t : K} (h : Between g t) (h0 : t ≤ 0) : HiSlope g t 0 :=
  ⟨t, h, fun y => by rw [hiAt_of_neg y h0]; ring⟩

/-- Both halves of a block are slopes of the product, whatever the other factor; the lower half except in case 16. -/
theorem block_slopes (g h : Iv K) (hg : g.a ≤ g.b ∨ 0 ≤ g.b ∨ g.a < 0) :
    LoSlope g (calcSubgrad g h).ll (calcSubgrad g h).lu ∧ HiSlope g (calcSubgrad g h).ul (calcSubgrad g h).uu := by
  have ba := between_a g
  have bb := between_b g
  unfold calcSubgrad
  rcases sgK_weak g with ⟨e, h1, h2⟩ | ⟨e, h1, h2⟩ | ⟨e, h1, h2⟩ | ⟨e, h1, h2⟩
  · rcases sgM_weak h with ⟨f, -⟩ | ⟨f, -⟩ | ⟨f, -⟩ | ⟨f, -⟩ <;>
      simp only [e, f, Nat.mul_zero, Nat.zero_add] <;>
      exact ⟨LoSlope.pos (by assumption) (by assumption), HiSlope.pos (by assumption) (by assumption)⟩
  · rcases sgM_weak h with ⟨f, -⟩ | ⟨f, -⟩ | ⟨f, -⟩ | ⟨f, -⟩ <;>
      simp only [e, f, Nat.reduceMul, Nat.reduceAdd] <;>
      exact ⟨LoSlope.neg (by assumption) (by assumption), HiSlope.neg (by assumption) (by assumption)⟩
  · have b0 : Between g 0 := ⟨(min_le_left _ _).trans h1, h2.trans (le_max_right _ _)⟩
    rcases sgM_weak h with ⟨f, -⟩ | ⟨f, -⟩ | ⟨f, -⟩ | ⟨f, -⟩ <;>
      simp only [e, f, Nat.reduceMul, Nat.reduceAdd]
    · exact ⟨LoSlope.neg ba h1, HiSlope.pos bb h2⟩
    · exact ⟨LoSlope.pos bb h2, HiSlope.neg ba h1⟩
    · refine ⟨?_, ?_⟩
      · split_ifs
        · exact LoSlope.neg ba h1
        · exact LoSlope.pos bb h2
      · split_ifs
        · exact HiSlope.neg ba h1
        · exact HiSlope.pos bb h2
    · exact ⟨LoSlope.pos b0 le_rfl, HiSlope.pos b0 le_rfl⟩
  · have b0 : Between g 0 := ⟨(min_le_right _ _).trans h2, h1.trans (le_max_left _ _)⟩
    have hb : g.b = 0 := by
      rcases hg with hg | hg | hg
      · exact le_antisymm h2 (h1.trans hg)
      · exact le_antisymm h2 hg
      · exact absurd h1 (not_le.2 hg)
    rcases sgM_weak h with ⟨f, -⟩ | ⟨f, -⟩ | ⟨f, -⟩ | ⟨f, -⟩ <;>
      simp only [e, f, Nat.reduceMul, Nat.reduceAdd]
    · exact ⟨LoSlope.pos ba h1, HiSlope.neg bb h2⟩
    · exact ⟨LoSlope.neg bb h2, HiSlope.pos ba h1⟩
    · exact ⟨LoSlope.pos b0 le_rfl, HiSlope.pos b0 le_rfl⟩
    · refine ⟨?_, ?_⟩
      · split_ifs
        · exact LoSlope.pos ba h1
        · rw [hb, neg_zero]; exact LoSlope.pos b0 le_rfl
      · split_ifs
        · exact HiSlope.pos ba h1
        · exact HiSlope.neg bb h2

theorem between_point {g : Iv K} (hg : g.a = g.b) {t : K} (ht : Between g t) : t = g.a := by
  unfold Between at ht
  rw [← hg, min_self, max_self] at ht
  exact le_antisymm ht.2 ht.1

/-- Slopes of a proper factor lie above the lower end of the product and below the upper one. -/
theorem slope_proper {g : Iv K} (hg : g.a ≤ g.b) (y : Iv K) {t : K} (ht : Between g t) :
    kLo g y ≤ loAt y t ∧ hiAt y t ≤ kHi g y := by
  have h := isKaucherProduct_kForm g y
  unfold IsKaucherProduct at h
  simp only [hg, if_true] at h
  exact ⟨h.1.2 ⟨t, ht, rfl⟩, h.2.2 ⟨t, ht, rfl⟩⟩

theorem slope_improper {g : Iv K} (hg : g.b ≤ g.a) (y : Iv K) {t : K} (ht : Between g t) :
    loAt y t ≤ kLo g y ∧ kHi g y ≤ hiAt y t := by
  have h := isKaucherProduct_kForm g y
  unfold IsKaucherProduct at h
  by_cases hp : g.a ≤ g.b
  · simp only [hp, if_true] at h
    have e := le_antisymm hp hg
    obtain ⟨⟨s, hs, es⟩, -⟩ := h.1
    obtain ⟨⟨s', hs', es'⟩, -⟩ := h.2
    rw [between_point e ht]
    rw [between_point e hs] at es
    rw [between_point e hs'] at es'
    exact ⟨es.symm.le, es'.le⟩
  · simp only [hp, if_false] at h
    exact ⟨h.1.2 ⟨t, ht, rfl⟩, h.2.2 ⟨t, ht, rfl⟩⟩

/-! ## One Newton step -/

theorem ivAt_ends {n : Nat} (x : Dbl2 n → K) (j : Fin n) : (ivAt x j).a = x (.inl j) ∧ (ivAt x j).b = x (.inr j) := by
  unfold ivAt mkIv; split_ifs <;> exact ⟨rfl, rfl⟩

theorem not_bad {g : Iv K} (hg : g.a ≤ g.b ∨ 0 ≤ g.b ∨ g.a < 0) (h : Iv K) : ¬ BadCorner g h := by
  rintro ⟨h1, h2, -, -, -, hn⟩
  refine hn ?_
  rcases hg with hg | hg | hg
  · rw [le_antisymm h1 (h2.trans hg), zero_mul]
  · rw [le_antisymm h1 hg, zero_mul]
  · exact absurd h2 (not_le.2 hg)

/-- The subgradient matrix at `x` applied to the next iterate. -/
theorem newton_image {n : Nat} (solve : Solver K n) (hs : SolveOK solve) (A : Fin n → Fin n → Iv K)
    (hA : ∀ i j, WF (A i j)) (b : Fin n → Iv K) (tau : K) (x xx : Dbl2 n → K)
    (hb : ∀ i j, ¬ BadCorner (A i j) (ivAt x j)) (hstep : newtonStep Rnd.exact solve A b tau x = .ok xx) (i : Fin n) :
    (Matrix.of (subgradMat A x)).mulVec xx (.inl i) - (b i).a = (1 - tau) * resVec Rnd.exact A b x (.inl i) ∧
    (Matrix.of (subgradMat A x)).mulVec xx (.inr i) - (b i).b = (1 - tau) * resVec Rnd.exact A b x (.inr i) := by
  unfold newtonStep at hstep
  cases hd : solve (subgradMat A x) (resVec Rnd.exact A b x) with
  | error e => rw [hd] at hstep; cases hstep
  | ok d =>
    rw [hd] at hstep
    injection hstep with hstep
    have hm := ((hs _ _).2 d hd).2
    have : xx = x - tau • d := by rw [← hstep]; funext k; simp [mul_comm]
    rw [this, Matrix.mulVec_sub, Matrix.mulVec_smul, hm]
    have hr := resVec_eq A hA b x hb
    have r1 := congrFun hr (.inl i)
    have r2 := congrFun hr (.inr i)
    simp only [Pi.sub_apply, Sum.elim_inl, Sum.elim_inr] at r1 r2
    simp only [Pi.sub_apply, Pi.smul_apply, smul_eq_mul]
    constructor
    · linear_combination -r1
    · linear_combination -r2

theorem subgrad_slopes {n : Nat} (A : Fin n → Fin n → Iv K) (x y : Dbl2 n → K)
    (hg : ∀ i j, (A i j).a ≤ (A i j).b ∨ 0 ≤ (A i j).b ∨ (A i j).a < 0) (i : Fin n) :
    (∃ t : Fin n → K, (∀ j, Between (A i j) (t j)) ∧
      (Matrix.of (subgradMat A x)).mulVec y (.inl i) = ∑ j, loAt (ivAt y j) (t j)) ∧
    ∃ t : Fin n → K, (∀ j, Between (A i j) (t j)) ∧
      (Matrix.of (subgradMat A x)).mulVec y (.inr i) = ∑ j, hiAt (ivAt y j) (t j) := by
  have h := fun j => block_slopes (A i j) (ivAt x j) (hg i j)
  choose t ht et using fun j => (h j).1
  choose s hs es using fun j => (h j).2
  refine ⟨⟨t, ht, ?_⟩, s, hs, ?_⟩
  · simp only [Matrix.mulVec, dotProduct, Fintype.sum_sum_type, Matrix.of_apply, subgradMat]
    rw [← Finset.sum_add_distrib]
    refine Finset.sum_congr rfl fun j _ => ?_
    rw [← et j, (ivAt_ends y j).1, (ivAt_ends y j).2]
  · simp only [Matrix.mulVec, dotProduct, Fintype.sum_sum_type, Matrix.of_apply, subgradMat]
    rw [← Finset.sum_add_distrib]
    refine Finset.sum_congr rfl fun j _ => ?_
    rw [← es j, (ivAt_ends y j).1, (ivAt_ends y j).2]

/-- C143, one step with any damping, proper matrix: the lower residual does not exceed `1 - τ` times the previous
one, the upper residual is not below it. -/
theorem C143_step {n : Nat} (solve : Solver K n) (hs : SolveOK solve) (A : Fin n → Fin n → Iv K)
    (hA : ∀ i j, (A i j).a ≤ (A i j).b) (b : Fin n → Iv K) (tau : K) (x xx : Dbl2 n → K)
    (hstep : newtonStep Rnd.exact solve A b tau x = .ok xx) (i : Fin n) :
    resVec Rnd.exact A b xx (.inl i) ≤ (1 - tau) * resVec Rnd.exact A b x (.inl i) ∧
    (1 - tau) * resVec Rnd.exact A b x (.inr i) ≤ resVec Rnd.exact A b xx (.inr i) := by
  have hW : ∀ i j, WF (A i j) := fun i j _ => hA i j
  obtain ⟨e1, e2⟩ := newton_image solve hs A hW b tau x xx (fun i j => not_bad (Or.inl (hA i j)) _) hstep i
  obtain ⟨⟨t, ht, et⟩, s, hs', es⟩ := subgrad_slopes A x xx (fun i j => Or.inl (hA i j)) i
  obtain ⟨r1, r2⟩ := resVec_ends A hW b xx i
  rw [r1, r2, ← e1, ← e2, et, es]
  have u := Finset.sum_le_sum fun j (_ : j ∈ Finset.univ) => (slope_proper (hA i j) (ivAt xx j) (ht j)).1
  have v := Finset.sum_le_sum fun j (_ : j ∈ Finset.univ) => (slope_proper (hA i j) (ivAt xx j) (hs' j)).2
  exact ⟨by linarith, by linarith⟩

/-- C143, one step, improper matrix without zeros inside the entries: the other way round. -/
theorem C143_step_improper {n : Nat} (solve : Solver K n) (hs : SolveOK solve) (A : Fin n → Fin n → Iv K)
    (hW : ∀ i j, WF (A i j)) (hA : ∀ i j, (A i j).b ≤ (A i j).a) (hz : ∀ i j, 0 ≤ (A i j).b ∨ (A i j).a < 0)
    (b : Fin n → Iv K) (tau : K) (x xx : Dbl2 n → K)
    (hstep : newtonStep Rnd.exact solve A b tau x = .ok xx) (i : Fin n) :
    (1 - tau) * resVec Rnd.exact A b x (.inl i) ≤ resVec Rnd.exact A b xx (.inl i) ∧
    resVec Rnd.exact A b xx (.inr i) ≤ (1 - tau) * resVec Rnd.exact A b x (.inr i) := by
  obtain ⟨e1, e2⟩ := newton_image solve hs A hW b tau x xx (fun i j => not_bad (Or.inr (hz i j)) _) hstep i
  obtain ⟨⟨t, ht, et⟩, s, hs', es⟩ := subgrad_slopes A x xx (fun i j => Or.inr (hz i j)) i
  obtain ⟨r1, r2⟩ := resVec_ends A hW b xx i
  rw [r1, r2, ← e1, ← e2, et, es]
  have u := Finset.sum_le_sum fun j (_ : j ∈ Finset.univ) => (slope_improper (hA i j) (ivAt xx j) (ht j)).1
  have v := Finset.sum_le_sum fun j (_ : j ∈ Finset.univ) => (slope_improper (hA i j) (ivAt xx j) (hs' j)).2
  exact ⟨by linarith, by linarith⟩

/-! ## The result -/

/-- Whatever is returned after at least one pass is the end of a Newton step. -/
theorem subdiff_last {n : Nat} (R : Rnd K) (solve : Solver K n) (A : Fin n → Fin n → Iv K) (b : Fin n → Iv K)
    (tol : K) (maxiter : Int) (hmax : 0 ≤ maxiter) (tau normMin : K) (X : Fin n → Iv K)
    (h : subdiff R solve A b tol maxiter tau normMin = .ok X) :
    ∃ x xx, newtonStep R solve A b tau x = .ok xx ∧ X = fun j => ivAt xx j := by
  have loop : ∀ (fuel : Nat) (x xx : Dbl2 n → K), subdiffLoop R solve A b tol tau normMin (fuel + 1) x = .ok xx →
      ∃ y, newtonStep R solve A b tau y = .ok xx := by
    intro fuel
    induction fuel with
    | zero =>
      intro x xx h
      rw [subdiffLoop] at h
      cases hs : newtonStep R solve A b tau x with
      | error e => rw [hs] at h; cases h
      | ok y =>
        rw [hs] at h
        dsimp only at h
        split_ifs at h
        · rw [subdiffLoop] at h
          injection h with h; exact ⟨x, h ▸ hs⟩
        · injection h with h; exact ⟨x, h ▸ hs⟩
    | succ fuel ih =>
      intro x xx h
      rw [subdiffLoop] at h
      cases hs : newtonStep R solve A b tau x with
      | error e => rw [hs] at h; cases h
      | ok y =>
        rw [hs] at h
        dsimp only at h
        split_ifs at h
        · exact ih y xx h
        · injection h with h; exact ⟨x, h ▸ hs⟩
  unfold subdiff at h
  rw [dif_pos rfl, dif_pos rfl] at h
  change subdiffSq R solve A b tol maxiter tau normMin = .ok X at h
  unfold subdiffSq at h
  cases h0 : solve (superMatrix R A) (Sum.elim (fun i => (b i).a) (fun i => (b i).b)) with
  | error e => rw [h0] at h; cases h
  | ok x0 =>
    rw [h0] at h
    dsimp only at h
    obtain ⟨f, hf⟩ : ∃ f, (maxiter + 1).toNat = f + 1 := ⟨maxiter.toNat, by omega⟩
    rw [hf] at h
    cases hl : subdiffLoop R solve A b tol tau normMin (f + 1) x0 with
    | error e => rw [hl] at h; cases h
    | ok xx =>
      rw [hl] at h
      injection h with h
      obtain ⟨y, hy⟩ := loop f x0 xx hl
      exact ⟨y, xx, hy, h.symm⟩

/-- C143: with full steps and a proper matrix whatever `Subdiff` returns, converged or not, satisfies `b ⊆ A X`. -/
theorem C143_proper {n : Nat} (solve : Solver K n) (hs : SolveOK solve) (A : Fin n → Fin n → Iv K)
    (hA : ∀ i j, (A i j).a ≤ (A i j).b) (b : Fin n → Iv K) (tol : K) (maxiter : Int) (hmax : 0 ≤ maxiter)
    (normMin : K) (X : Fin n → Iv K) (h : subdiff Rnd.exact solve A b tol maxiter 1 normMin = .ok X) :
    RightInside A X b := by
  obtain ⟨x, xx, hstep, rfl⟩ := subdiff_last _ solve A b tol maxiter hmax 1 normMin X h
  intro i
  obtain ⟨h1, h2⟩ := C143_step solve hs A hA b 1 x xx hstep i
  obtain ⟨r1, r2⟩ := resVec_ends A (fun i j _ => hA i j) b xx i
  rw [r1, sub_self, zero_mul] at h1
  rw [r2, sub_self, zero_mul] at h2
  refine ⟨fun j => kLo (A i j) (ivAt xx j), fun j => kHi (A i j) (ivAt xx j), fun j => isKaucherProduct_kForm _ _, ?_, ?_⟩ <;>
    linarith

/-- C143: with full steps and an improper matrix whose entries do not contain zero, `A X ⊆ b`. -/
theorem C143_improper {n : Nat} (solve : Solver K n) (hs : SolveOK solve) (A : Fin n → Fin n → Iv K)
    (hW : ∀ i j, WF (A i j)) (hA : ∀ i j, (A i j).b ≤ (A i j).a) (hz : ∀ i j, 0 ≤ (A i j).b ∨ (A i j).a < 0)
    (b : Fin n → Iv K) (tol : K) (maxiter : Int) (hmax : 0 ≤ maxiter)
    (normMin : K) (X : Fin n → Iv K) (h : subdiff Rnd.exact solve A b tol maxiter 1 normMin = .ok X) :
    LeftInside A X b := by
  obtain ⟨x, xx, hstep, rfl⟩ := subdiff_last _ solve A b tol maxiter hmax 1 normMin X h
  intro i
  obtain ⟨h1, h2⟩ := C143_step_improper solve hs A hW hA hz b 1 x xx hstep i
  obtain ⟨r1, r2⟩ := resVec_ends A hW b xx i
  rw [r1, sub_self, zero_mul] at h1
  rw [r2, sub_self, zero_mul] at h2
  refine ⟨fun j => kLo (A i j) (ivAt xx j), fun j => kHi (A i j) (ivAt xx j), fun j => isKaucherProduct_kForm _ _, ?_, ?_⟩ <;>
    linarith

theorem loAt_mem {Y : Iv K} (hY : Y.a ≤ Y.b) (t : K) : ∃ y, y ∈ Y ∧ loAt Y t = t * y := by
  rcases le_total 0 t with h | h
  · exact ⟨Y.a, ⟨le_rfl, hY⟩, loAt_of_pos Y h⟩
  · exact ⟨Y.b, ⟨hY, le_rfl⟩, loAt_of_neg Y h⟩

theorem hiAt_mem {Y : Iv K} (hY : Y.a ≤ Y.b) (t : K) : ∃ y, y ∈ Y ∧ hiAt Y t = t * y := by
  rcases le_total 0 t with h | h
  · exact ⟨Y.b, ⟨hY, le_rfl⟩, hiAt_of_pos Y h⟩
  · exact ⟨Y.a, ⟨le_rfl, hY⟩, hiAt_of_neg Y h⟩

theorem loAt_le {Y : Iv K} {y : K} (hy : y ∈ Y) (t : K) : loAt Y t ≤ t * y ∧ t * y ≤ hiAt Y t := by
  rw [Iv.mem_def] at hy
  rcases le_total 0 t with h | h
  · rw [loAt_of_pos Y h, hiAt_of_pos Y h]
    exact ⟨mul_le_mul_of_nonneg_left hy.1 h, mul_le_mul_of_nonneg_left hy.2 h⟩
  · rw [loAt_of_neg Y h, hiAt_of_neg Y h]
    exact ⟨mul_le_mul_of_nonpos_left hy.2 h, mul_le_mul_of_nonpos_left hy.1 h⟩

theorem between_mem {g : Iv K} (hg : g.a ≤ g.b) {t : K} : Between g t ↔ t ∈ g := by
  unfold Between
  rw [min_eq_left hg, max_eq_right hg, Iv.mem_def]

/-- A box of tolerable solutions is a box with `A X ⊆ b`. -/
theorem tolerable_box {n : Nat} (A : Fin n → Fin n → Iv K) (hA : ∀ i j, Ordinary (A i j)) (b X : Fin n → Iv K)
    (hX : ∀ j, (X j).a ≤ (X j).b) : (∀ x, InVec x X → Tolerable A b x) ↔ LeftInside A X b := by
  constructor
  · intro h i
    refine ⟨_, _, fun j => isKaucherProduct_kForm _ _, ?_, ?_⟩
    · have k := fun j => isKaucherProduct_kForm (A i j) (X j)
      simp only [IsKaucherProduct, (hA i _).2, if_true] at k
      choose t ht et using fun j => (k j).1.1
      choose x hx ex using fun j => loAt_mem (hX j) (t j)
      have := (h x hx (fun r j => if r = i then t j else (A r j).a) (fun r j => by
        by_cases hr : r = i
        · subst hr; simpa using (between_mem (hA _ j).2).1 (ht j)
        · simp only [hr, if_false]; exact ⟨le_rfl, (hA r j).2⟩) i).1
      refine this.trans (le_of_eq ?_)
      simp only [apply, if_true]
      exact Finset.sum_congr rfl fun j _ => by rw [et j, ex j]
    · have k := fun j => isKaucherProduct_kForm (A i j) (X j)
      simp only [IsKaucherProduct, (hA i _).2, if_true] at k
      choose t ht et using fun j => (k j).2.1
      choose x hx ex using fun j => hiAt_mem (hX j) (t j)
      have := (h x hx (fun r j => if r = i then t j else (A r j).a) (fun r j => by
        by_cases hr : r = i
        · subst hr; simpa using (between_mem (hA _ j).2).1 (ht j)
        · simp only [hr, if_false]; exact ⟨le_rfl, (hA r j).2⟩) i).2
      refine le_trans (le_of_eq ?_) this
      simp only [apply, if_true]
      exact Finset.sum_congr rfl fun j _ => by rw [et j, ex j]
  · intro h x hx A' hA' i
    obtain ⟨U, V, hp, hu, hv⟩ := h i
    simp only [IsKaucherProduct, (hA i _).2, if_true] at hp
    refine ⟨hu.trans (Finset.sum_le_sum fun j _ => ?_), le_trans (Finset.sum_le_sum fun j _ => ?_) hv⟩
    · exact ((hp j).1.2 ⟨A' i j, (between_mem (hA i j).2).2 (hA' i j), rfl⟩).trans (loAt_le (hx j) _).1
    · exact (loAt_le (hx j) _).2.trans ((hp j).2.2 ⟨A' i j, (between_mem (hA i j).2).2 (hA' i j), rfl⟩)

/-- C143, what this means for inner estimates: a proper result for an ordinary matrix consists of tolerable solutions
only if it is an exact formal solution; an approximate result never is an inner estimate. -/
theorem C143_tolerable {n : Nat} (solve : Solver K n) (hs : SolveOK solve) (A : Fin n → Fin n → Iv K)
    (hA : ∀ i j, Ordinary (A i j)) (b : Fin n → Iv K) (tol : K) (maxiter : Int) (hmax : 0 ≤ maxiter)
    (normMin : K) (X : Fin n → Iv K) (h : subdiff Rnd.exact solve A b tol maxiter 1 normMin = .ok X)
    (hX : ∀ j, (X j).a ≤ (X j).b) : (∀ x, InVec x X → Tolerable A b x) ↔ FormalSolution A X b := by
  rw [tolerable_box A hA b X hX]
  constructor
  · intro hl i
    obtain ⟨U, V, hp, hu, hv⟩ := hl i
    obtain ⟨U', V', hp', hu', hv'⟩ := C143_proper solve hs A (fun i j => (hA i j).2) b tol maxiter hmax normMin X h i
    have e : ∀ j, U j = U' j ∧ V j = V' j := fun j => isKaucherProduct_unique (hp j) (hp' j)
    have eU : U = U' := funext fun j => (e j).1
    have eV : V = V' := funext fun j => (e j).2
    subst eU eV
    exact ⟨U, V, hp, le_antisymm hu' hu, le_antisymm hv hv'⟩
  · intro hf i
    obtain ⟨U, V, hp, hu, hv⟩ := hf i
    exact ⟨U, V, hp, hu.ge, hv.le⟩

/-- A value between the bounds is reached on the segment between two rows. -/
theorem segment_value {n : Nat} (lo hi t s : Fin n → K) (x : Fin n → K) (l u : K) (hlu : l ≤ u)
    (ht : ∀ j, lo j ≤ t j ∧ t j ≤ hi j) (hs : ∀ j, lo j ≤ s j ∧ s j ≤ hi j)
    (h1 : l ≤ ∑ j, t j * x j) (h2 : ∑ j, s j * x j ≤ u) :
    ∃ r : Fin n → K, (∀ j, lo j ≤ r j ∧ r j ≤ hi j) ∧ l ≤ ∑ j, r j * x j ∧ ∑ j, r j * x j ≤ u := by
  by_cases c1 : ∑ j, t j * x j ≤ u
  · exact ⟨t, ht, h1, c1⟩
  by_cases c2 : l ≤ ∑ j, s j * x j
  · exact ⟨s, hs, c2, h2⟩
  set p := ∑ j, s j * x j with hp
  set q := ∑ j, t j * x j with hq
  have c1' := not_le.1 c1
  have c2' := not_le.1 c2
  have hpq : 0 < q - p := by linarith
  set w := (l - p) / (q - p) with hw
  have w0 : 0 ≤ w := div_nonneg (by linarith) hpq.le
  have w1 : w ≤ 1 := (div_le_one hpq).2 (by linarith)
  have ev : ∑ j, (s j + w * (t j - s j)) * x j = l := by
    have : ∑ j, (s j + w * (t j - s j)) * x j = p + w * (q - p) := by
      rw [hp, hq, ← Finset.sum_sub_distrib, Finset.mul_sum, ← Finset.sum_add_distrib]
      exact Finset.sum_congr rfl fun j _ => by ring
    rw [this, hw, div_mul_cancel₀ _ hpq.ne']
    ring
  refine ⟨fun j => s j + w * (t j - s j), fun j => ?_, ev.ge, ev.le.trans hlu⟩
  have a1 := mul_nonneg w0 (sub_nonneg.2 (ht j).1)
  have a2 := mul_nonneg (sub_nonneg.2 w1) (sub_nonneg.2 (hs j).1)
  have a3 := mul_nonneg w0 (sub_nonneg.2 (ht j).2)
  have a4 := mul_nonneg (sub_nonneg.2 w1) (sub_nonneg.2 (hs j).2)
  constructor <;> nlinarith

/-- A proper box with `(dual A) X ⊆ b` consists of united solutions. -/
theorem united_box {n : Nat} (A : Fin n → Fin n → Iv K) (hA : ∀ i j, Ordinary (A i j)) (b X : Fin n → Iv K)
    (hb : ∀ i, (b i).a ≤ (b i).b) (h : LeftInside (fun i j => (A i j).dual) X b)
    (x : Fin n → K) (hx : InVec x X) : United A b x := by
  have de : ∀ i j, (A i j).dual.a = (A i j).b ∧ (A i j).dual.b = (A i j).a := fun i j => by
    unfold Iv.dual; split_ifs <;> exact ⟨rfl, rfl⟩
  have hbt : ∀ i j t, Between (A i j).dual t → (A i j).a ≤ t ∧ t ≤ (A i j).b := fun i j t ht => by
    unfold Between at ht
    rwa [(de i j).1, (de i j).2, min_eq_right (hA i j).2, max_eq_left (hA i j).2] at ht
  have row : ∀ i, ∃ r : Fin n → K, (∀ j, (A i j).a ≤ r j ∧ r j ≤ (A i j).b) ∧
      (b i).a ≤ ∑ j, r j * x j ∧ ∑ j, r j * x j ≤ (b i).b := by
    intro i
    obtain ⟨U, V, hp, hu, hv⟩ := h i
    have att : ∀ j, (∃ t, Between (A i j).dual t ∧ U j = loAt (X j) t) ∧ ∃ t, Between (A i j).dual t ∧ V j = hiAt (X j) t := by
      intro j
      have := hp j
      unfold IsKaucherProduct at this
      dsimp only at this
      split_ifs at this
      · exact ⟨this.1.1, this.2.1⟩
      · exact ⟨this.1.1, this.2.1⟩
    choose t ht et using fun j => (att j).1
    choose s hs es using fun j => (att j).2
    refine segment_value _ _ t s x _ _ (hb i) (fun j => hbt i j _ (ht j)) (fun j => hbt i j _ (hs j)) ?_ ?_
    · refine hu.trans (Finset.sum_le_sum fun j _ => ?_)
      rw [et j]; exact (loAt_le (hx j) _).1
    · refine le_trans (Finset.sum_le_sum fun j _ => ?_) hv
      rw [es j]; exact (loAt_le (hx j) _).2
  choose A' h1 h2 h3 using row
  exact ⟨A', fun i j => h1 i j, fun i => ∑ j, A' i j * x j, fun i => ⟨h2 i, h3 i⟩, fun i => rfl⟩

/-- C143, full statement for inner estimates of the united solution set: every proper result for `(dual A) X = b` is a
box of united solutions. -/
def C143_united_statement (K : Type*) [Field K] [LinearOrder K] [IsStrictOrderedRing K] : Prop :=
  ∀ (n : Nat) (solve : Solver K n), SolveOK solve → ∀ (A : Fin n → Fin n → Iv K), (∀ i j, Ordinary (A i j)) →
    ∀ b : Fin n → Iv K, (∀ i, Ordinary (b i)) → ∀ (tol : K) (maxiter : Int), 0 ≤ maxiter → ∀ (normMin : K) (X : Fin n → Iv K),
      subdiff Rnd.exact solve (fun i j => (A i j).dual) b tol maxiter 1 normMin = .ok X → (∀ j, (X j).a ≤ (X j).b) →
      ∀ x, InVec x X → United A b x

/-- C143, partial: true when no entry of the matrix contains zero in its interior. Missing: entries around zero, where
the wrong sign in case 16 of `calcSubgrad` makes it false (`C143_united_false`). -/
theorem C143_united_partial {n : Nat} (solve : Solver K n) (hs : SolveOK solve) (A : Fin n → Fin n → Iv K)
    (hA : ∀ i j, Ordinary (A i j)) (hz : ∀ i j, 0 ≤ (A i j).a ∨ (A i j).b < 0) (b : Fin n → Iv K)
    (hb : ∀ i, Ordinary (b i)) (tol : K) (maxiter : Int) (hmax : 0 ≤ maxiter) (normMin : K) (X : Fin n → Iv K)
    (h : subdiff Rnd.exact solve (fun i j => (A i j).dual) b tol maxiter 1 normMin = .ok X)
    (x : Fin n → K) (hx : InVec x X) : United A b x := by
  have de : ∀ i j, (A i j).dual.a = (A i j).b ∧ (A i j).dual.b = (A i j).a := fun i j => by
    unfold Iv.dual; split_ifs <;> exact ⟨rfl, rfl⟩
  refine united_box A hA b X (fun i => (hb i).2) ?_ x hx
  refine C143_improper solve hs _ ?_ ?_ ?_ b tol maxiter hmax normMin X h
  · intro i j hc
    unfold Iv.dual at hc ⊢
    split_ifs at hc ⊢ with h
    exact h
  · intro i j
    rw [(de i j).1, (de i j).2]; exact (hA i j).2
  · intro i j
    rw [(de i j).1, (de i j).2]; exact hz i j

/-! ## Entries around zero: the default call runs in a circle and returns a box that is not a box of solutions -/

/-- A step of which the inverse of the subgradient matrix is known. -/
theorem newtonStep_of_inverse {n : Nat} (R : Rnd K) (solve : Solver K n) (hs : SolveOK solve) (A : Fin n → Fin n → Iv K)
    (b : Fin n → Iv K) (x y : Dbl2 n → K) (G : Dbl2 n → Dbl2 n → K)
    (hG : ∀ p q, ∑ r, G p r * subgradMat A x r q = if p = q then 1 else 0)
    (hy : ∀ p, y p = x p - ∑ q, G p q * resVec R A b x q) : newtonStep R solve A b 1 x = .ok y := by
  have h1 : Matrix.of G * Matrix.of (subgradMat A x) = 1 := by
    ext p q
    rw [Matrix.mul_apply, Matrix.one_apply]
    exact hG p q
  have hu : IsUnit (Matrix.of (subgradMat A x)).det := by
    refine isUnit_iff_ne_zero.2 fun h0 => ?_
    have := congrArg Matrix.det h1
    rw [Matrix.det_mul, h0, mul_zero, Matrix.det_one] at this
    exact zero_ne_one this
  obtain ⟨z, hz⟩ := (hs (subgradMat A x) (resVec R A b x)).1 hu
  have hm := ((hs _ _).2 z hz).2
  have e : z = (Matrix.of G).mulVec (resVec R A b x) := by
    rw [← hm, Matrix.mulVec_mulVec, h1, Matrix.one_mulVec]
  unfold newtonStep
  rw [hz]
  refine congrArg Except.ok (funext fun p => ?_)
  rw [hy p, e, mul_one]
  rfl

theorem solve_of_inverse {n : Nat} (solve : Solver K n) (hs : SolveOK solve) (F G : Dbl2 n → Dbl2 n → K) (y z : Dbl2 n → K)
    (hG : ∀ p q, ∑ r, G p r * F r q = if p = q then 1 else 0) (hz : ∀ p, z p = ∑ q, G p q * y q) :
    solve F y = .ok z := by
  have h1 : Matrix.of G * Matrix.of F = 1 := by
    ext p q
    rw [Matrix.mul_apply, Matrix.one_apply]
    exact hG p q
  have hu : IsUnit (Matrix.of F).det := by
    refine isUnit_iff_ne_zero.2 fun h0 => ?_
    have := congrArg Matrix.det h1
    rw [Matrix.det_mul, h0, mul_zero, Matrix.det_one] at this
    exact zero_ne_one this
  obtain ⟨z', hz'⟩ := (hs F y).1 hu
  have hm := ((hs _ _).2 z' hz').2
  have e : z' = (Matrix.of G).mulVec y := by
    rw [← hm, Matrix.mulVec_mulVec, h1, Matrix.one_mulVec]
  rw [hz', e]
  exact congrArg Except.ok (funext fun p => (hz p).symm)

def sdA : Fin 2 → Fin 2 → Iv ℚ :=
  ![![⟨.classical, -2, 3⟩, ⟨.classical, 1, 1⟩], ![⟨.classical, -2, -1⟩, ⟨.classical, -3, 0⟩]]
def sdb : Fin 2 → Iv ℚ := ![⟨.classical, -1, 3⟩, ⟨.classical, -3, 0⟩]
def sdV (v : Fin 2 → Fin 2 → ℚ) : Dbl2 2 → ℚ | .inl i => v 0 i | .inr i => v 1 i
def sdM (M : Fin 2 → Fin 2 → Fin 2 → Fin 2 → ℚ) : Dbl2 2 → Dbl2 2 → ℚ
  | .inl i, .inl j => M 0 i 0 j
  | .inl i, .inr j => M 0 i 1 j
  | .inr i, .inl j => M 1 i 0 j
  | .inr i, .inr j => M 1 i 1 j

/-- The iterates: start, first, and then two in turn. -/
def sdX0 : Dbl2 2 → ℚ := sdV ![![2, -2], ![-2, 4]]
def sdX1 : Dbl2 2 → ℚ := sdV ![![0, -1], ![3/2, -3/2]]
def sdX2 : Dbl2 2 → ℚ := sdV ![![0, -1], ![-6, 3]]
def sdX3 : Dbl2 2 → ℚ := sdV ![![0, -28], ![3/2, -3/2]]

def sdG : Dbl2 2 → Dbl2 2 → ℚ :=
  sdM ![![![![-2, 0], ![0, -4/3]], ![![2, 0], ![0, 2/3]]], ![![![0, -4/3], ![-2, 0]], ![![0, 2/3], ![2, 0]]]]
def sdG0 : Dbl2 2 → Dbl2 2 → ℚ :=
  sdM ![![![![0, 0], ![0, -1/2]], ![![1, 0], ![0, 3/2]]], ![![![0, -1/2], ![0, 0]], ![![0, 3/2], ![1, 0]]]]
def sdG1 : Dbl2 2 → Dbl2 2 → ℚ :=
  sdM ![![![![0, 0], ![0, -1]], ![![1, 0], ![0, 0]]], ![![![0, -1], ![-3, 0]], ![![0, 0], ![1, 0]]]]
def sdG2 : Dbl2 2 → Dbl2 2 → ℚ :=
  sdM ![![![![0, 0], ![0, -1/2]], ![![1, 1], ![0, 0]]], ![![![0, -1/2], ![0, 0]], ![![0, 3/2], ![1, 0]]]]

theorem sd_steps (solve : Solver ℚ 2) (hs : SolveOK solve) :
    newtonStep Rnd.exact solve (fun i j => (sdA i j).dual) sdb 1 sdX0 = .ok sdX1 ∧
    newtonStep Rnd.exact solve (fun i j => (sdA i j).dual) sdb 1 sdX1 = .ok sdX2 ∧
    newtonStep Rnd.exact solve (fun i j => (sdA i j).dual) sdb 1 sdX2 = .ok sdX3 ∧
    newtonStep Rnd.exact solve (fun i j => (sdA i j).dual) sdb 1 sdX3 = .ok sdX2 :=
  ⟨newtonStep_of_inverse _ solve hs _ _ _ _ sdG0 (by decide +kernel) (by decide +kernel),
   newtonStep_of_inverse _ solve hs _ _ _ _ sdG1 (by decide +kernel) (by decide +kernel),
   newtonStep_of_inverse _ solve hs _ _ _ _ sdG2 (by decide +kernel) (by decide +kernel),
   newtonStep_of_inverse _ solve hs _ _ _ _ sdG1 (by decide +kernel) (by decide +kernel)⟩

/-- The call with the default parameters (`tol = 1e-12`, `maxiter = 500`, `tau = 1`, `norm_min_val = 1e-12`). -/
theorem sd_run (solve : Solver ℚ 2) (hs : SolveOK solve) :
    subdiff Rnd.exact solve (fun i j => (sdA i j).dual) sdb (1 / 10 ^ 12) 500 1 (1 / 10 ^ 12) =
      .ok ![⟨.classical, 0, 3/2⟩, ⟨.classical, -28, -3/2⟩] := by
  obtain ⟨s0, s1, s2, s3⟩ := sd_steps solve hs
  have hloop : ∀ k, subdiffLoop Rnd.exact solve (fun i j => (sdA i j).dual) sdb (1 / 10 ^ 12) 1 (1 / 10 ^ 12) (2 * k + 1) sdX2 =
      .ok sdX3 := by
    intro k
    induction k with
    | zero =>
      rw [subdiffLoop, s2]
      dsimp only
      rw [if_pos (by decide +kernel), subdiffLoop]
    | succ k ih =>
      rw [show 2 * (k + 1) + 1 = (2 * k + 1) + 1 + 1 by ring, subdiffLoop, s2]
      dsimp only
      rw [if_pos (by decide +kernel), subdiffLoop, s3]
      dsimp only
      rw [if_pos (by decide +kernel), ih]
  unfold subdiff
  rw [dif_pos rfl, dif_pos rfl]
  change subdiffSq Rnd.exact solve (fun i j => (sdA i j).dual) sdb _ _ _ _ = _
  unfold subdiffSq
  rw [solve_of_inverse solve hs _ sdG _ sdX0 (by decide +kernel) (by decide +kernel)]
  dsimp only
  rw [show ((500 : ℤ) + 1).toNat = (2 * 249 + 1) + 1 + 1 by decide, subdiffLoop, s0]
  dsimp only
  rw [if_pos (by decide +kernel), subdiffLoop, s1]
  dsimp only
  rw [if_pos (by decide +kernel), hloop 249]
  refine congrArg Except.ok (funext fun j => ?_)
  fin_cases j <;> decide +kernel

/-- C143 is false for entries around zero: called with the default parameters on `dual [[[-2, 3], 1], [[-2, -1], [-3, 0]]]` and
`[[-1, 3], [-3, 0]]` the method alternates between two points because of the sign in case 16, returns
`([0, 3/2], [-28, -3/2])` without a word, and `(0, -28)` in it is no solution at all. -/
theorem C143_united_false : ¬ C143_united_statement ℚ := by
  intro h
  obtain ⟨A', hA', b', hb', e⟩ := h 2 (exactSolver 2) (exactSolver_ok 2) sdA
    (by intro i j; fin_cases i <;> fin_cases j <;> norm_num [sdA, Ordinary]) sdb
    (by intro i; fin_cases i <;> norm_num [sdb, Ordinary]) _ 500 (by norm_num) _ _
    (sd_run (exactSolver 2) (exactSolver_ok 2)) (by intro j; fin_cases j <;> norm_num) ![0, -28]
    (by intro j; fin_cases j <;> norm_num [Iv.mem_def])
  have a00 := hA' 0 0
  have a01 := hA' 0 1
  have b0 := hb' 0
  have e0 := e 0
  norm_num [sdA, sdb, Iv.mem_def] at a00 a01 b0
  simp [apply, Fin.sum_univ_two] at e0
  have := le_antisymm a01.2 a01.1
  rw [this] at e0
  linarith [b0.1]

/-! ## Examples -/

/-- One pass on `[2, 4] x = [3, 5]` with an exact solver: the theorem on proper matrices applies to the result. -/
example (X : Fin 1 → Iv ℚ) (h : subdiff Rnd.exact (exactSolver 1) (fun _ _ : Fin 1 => ⟨.classical, 2, 4⟩)
    (fun _ : Fin 1 => ⟨.classical, 3, 5⟩) (1 / 10 ^ 12) 0 1 (1 / 10 ^ 12) = .ok X) :
    RightInside (fun _ _ : Fin 1 => (⟨.classical, 2, 4⟩ : Iv ℚ)) X (fun _ : Fin 1 => ⟨.classical, 3, 5⟩) :=
  C143_proper _ (exactSolver_ok 1) _ (fun _ _ => by norm_num) _ _ _ le_rfl _ _ h

/-- The hypotheses of `C143_united_partial` are met with a proper result: for `dual [1, 2] x = [2, 6]` the
step from the start `[4/3, 4]` lands on `[1, 6]`, all of whose points solve `a x = β` for some `a ∈ [1, 2]`,
`β ∈ [2, 6]`. -/
example : subdiff Rnd.exact (exactSolver 1) (fun _ _ : Fin 1 => (⟨.classical, 1, 2⟩ : Iv ℚ).dual)
      (fun _ : Fin 1 => ⟨.classical, 2, 6⟩) (1 / 10 ^ 12) 0 1 (1 / 10 ^ 12) = .ok (fun _ => ⟨.classical, 1, 6⟩) ∧
    ∀ x : Fin 1 → ℚ, InVec x (fun _ => ⟨.classical, 1, 6⟩) →
      United (fun _ _ : Fin 1 => (⟨.classical, 1, 2⟩ : Iv ℚ)) (fun _ : Fin 1 => ⟨.classical, 2, 6⟩) x := by
  have hr : subdiff Rnd.exact (exactSolver 1) (fun _ _ : Fin 1 => (⟨.classical, 1, 2⟩ : Iv ℚ).dual)
      (fun _ : Fin 1 => ⟨.classical, 2, 6⟩) (1 / 10 ^ 12) 0 1 (1 / 10 ^ 12) = .ok (fun _ => ⟨.classical, 1, 6⟩) := by
    unfold subdiff
    rw [dif_pos rfl, dif_pos rfl]
    change subdiffSq Rnd.exact (exactSolver 1) (fun _ _ : Fin 1 => (⟨.classical, 1, 2⟩ : Iv ℚ).dual)
      (fun _ : Fin 1 => ⟨.classical, 2, 6⟩) _ _ _ _ = _
    unfold subdiffSq
    rw [solve_of_inverse (exactSolver 1) (exactSolver_ok 1) _
      (fun p q => if p = q then 2/3 else 0) _ (Sum.elim (fun _ => 4/3) fun _ => 4) (by decide +kernel) (by decide +kernel)]
    dsimp only
    rw [show ((0 : ℤ) + 1).toNat = 0 + 1 by decide, subdiffLoop,
      newtonStep_of_inverse _ _ (exactSolver_ok 1) _ _ _ (Sum.elim (fun _ => 1) fun _ => 6)
        (fun p q => if p = q then (match p with | .inl _ => 1/2 | .inr _ => 1) else 0) (by decide +kernel) (by decide +kernel)]
    dsimp only
    rw [if_pos (by decide +kernel), subdiffLoop]
    refine congrArg Except.ok (funext fun j => ?_)
    fin_cases j; decide +kernel
  exact ⟨hr, fun x hx => C143_united_partial _ (exactSolver_ok 1) _ (fun _ _ => by norm_num [Ordinary])
    (fun _ _ => Or.inl (by norm_num)) _ (fun _ => by norm_num [Ordinary]) _ _ le_rfl _ _ hr x hx⟩

end IntvalPy
