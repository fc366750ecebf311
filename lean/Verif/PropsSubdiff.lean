import Verif.ModelSubdiff
import Verif.PropsKaucher
import Mathlib.Tactic.Linarith
import Mathlib.Tactic.NormNum
import Mathlib.Tactic.FieldSimp
import Mathlib.LinearAlgebra.Matrix.NonsingularInverse
import Mathlib.Data.Fin.VecNotation

/-!
# Properties of the subdifferential Newton method (C47)
-/

set_option autoImplicit false
set_option linter.unusedSectionVars false

namespace IntvalPy

open Spec

variable {K : Type*} [Field K] [LinearOrder K] [IsStrictOrderedRing K]

theorem npSign_eq (s : K) : (0 < s ∧ npSign s = 1) ∨ (s < 0 ∧ npSign s = -1) ∨ (s = 0 ∧ npSign s = 0) := by
  unfold npSign
  split_ifs with h1 h2
  · exact Or.inl ⟨h1, rfl⟩
  · exact Or.inr (Or.inl ⟨h2, rfl⟩)
  · exact Or.inr (Or.inr ⟨le_antisymm (not_lt.1 h1) (not_lt.1 h2), rfl⟩)

theorem sgK_cases (a : Iv K) :
    (sgK a = 0 ∧ 0 < a.a ∧ 0 < a.b) ∨ (sgK a = 2 ∧ a.a < 0 ∧ a.b < 0) ∨
    (sgK a = 1 ∧ a.a ≤ 0 ∧ 0 ≤ a.b ∧ a.a < a.b) ∨ (sgK a = 3 ∧ a.b ≤ 0 ∧ 0 ≤ a.a) := by
  unfold sgK
  rcases npSign_eq a.a with ⟨hs, e⟩ | ⟨hs, e⟩ | ⟨hs, e⟩ <;>
  rcases npSign_eq a.b with ⟨ht, f⟩ | ⟨ht, f⟩ | ⟨ht, f⟩ <;>
  rw [e, f] <;> norm_num <;> first | (split_ifs <;> simp <;> grind) | grind

theorem sgM_cases (b : Iv K) :
    (sgM b = 1 ∧ 0 < b.a ∧ 0 < b.b) ∨ (sgM b = 3 ∧ b.a < 0 ∧ b.b < 0) ∨
    (sgM b = 2 ∧ b.a ≤ 0 ∧ 0 ≤ b.b) ∨ (sgM b = 4 ∧ b.b ≤ 0 ∧ 0 ≤ b.a) := by
  unfold sgM
  rcases npSign_eq b.a with ⟨hs, e⟩ | ⟨hs, e⟩ | ⟨hs, e⟩ <;>
  rcases npSign_eq b.b with ⟨ht, f⟩ | ⟨ht, f⟩ | ⟨ht, f⟩ <;>
  rw [e, f] <;> norm_num <;> first | (split_ifs <;> simp <;> grind) | grind

/-- The pairs on which the code writes the wrong sign (`-a.b` in case 16): both factors improper around
zero and the second product is the winning one. -/
def BadCorner (g h : Iv K) : Prop :=
  g.b ≤ 0 ∧ 0 ≤ g.a ∧ h.b ≤ 0 ∧ 0 ≤ h.a ∧ g.a * h.a ≤ g.b * h.b ∧ g.b * h.b ≠ 0

theorem sgK_weak (a : Iv K) :
    (sgK a = 0 ∧ 0 ≤ a.a ∧ 0 ≤ a.b) ∨ (sgK a = 2 ∧ a.a ≤ 0 ∧ a.b ≤ 0) ∨
    (sgK a = 1 ∧ a.a ≤ 0 ∧ 0 ≤ a.b) ∨ (sgK a = 3 ∧ 0 ≤ a.a ∧ a.b ≤ 0) := by
  rcases sgK_cases a with ⟨e, h1, h2⟩ | ⟨e, h1, h2⟩ | ⟨e, h1, h2, -⟩ | ⟨e, h1, h2⟩
  · exact Or.inl ⟨e, h1.le, h2.le⟩
  · exact Or.inr (Or.inl ⟨e, h1.le, h2.le⟩)
  · exact Or.inr (Or.inr (Or.inl ⟨e, h1, h2⟩))
  · exact Or.inr (Or.inr (Or.inr ⟨e, h2, h1⟩))

theorem sgM_weak (b : Iv K) :
    (sgM b = 1 ∧ 0 ≤ b.a ∧ 0 ≤ b.b) ∨ (sgM b = 3 ∧ b.a ≤ 0 ∧ b.b ≤ 0) ∨
    (sgM b = 2 ∧ b.a ≤ 0 ∧ 0 ≤ b.b) ∨ (sgM b = 4 ∧ 0 ≤ b.a ∧ b.b ≤ 0) := by
  rcases sgM_cases b with ⟨e, h1, h2⟩ | ⟨e, h1, h2⟩ | ⟨e, h1, h2⟩ | ⟨e, h1, h2⟩
  · exact Or.inl ⟨e, h1.le, h2.le⟩
  · exact Or.inr (Or.inl ⟨e, h1.le, h2.le⟩)
  · exact Or.inr (Or.inr (Or.inl ⟨e, h1, h2⟩))
  · exact Or.inr (Or.inr (Or.inr ⟨e, h2, h1⟩))

set_option hygiene false in
/-- Signs of the four endpoint products from the signs of the endpoints. -/
local macro "signProducts" : tactic => `(tactic| (
  first | have q1 := mul_nonneg h1 h3 | have q1 := mul_nonpos_of_nonneg_of_nonpos h1 h3
        | have q1 := mul_nonpos_of_nonpos_of_nonneg h1 h3 | have q1 := mul_nonneg_of_nonpos_of_nonpos h1 h3
  first | have q2 := mul_nonneg h1 h4 | have q2 := mul_nonpos_of_nonneg_of_nonpos h1 h4
        | have q2 := mul_nonpos_of_nonpos_of_nonneg h1 h4 | have q2 := mul_nonneg_of_nonpos_of_nonpos h1 h4
  first | have q3 := mul_nonneg h2 h3 | have q3 := mul_nonpos_of_nonneg_of_nonpos h2 h3
        | have q3 := mul_nonpos_of_nonpos_of_nonneg h2 h3 | have q3 := mul_nonneg_of_nonpos_of_nonpos h2 h3
  first | have q4 := mul_nonneg h2 h4 | have q4 := mul_nonpos_of_nonneg_of_nonpos h2 h4
        | have q4 := mul_nonpos_of_nonpos_of_nonneg h2 h4 | have q4 := mul_nonneg_of_nonpos_of_nonpos h2 h4))

set_option hygiene false in
/-- Evaluate both sides in one sign case. -/
local macro "signCase" : tactic => `(tactic| (
  simp only [e, f, Nat.mul_zero, Nat.zero_add, Nat.reduceMul, Nat.reduceAdd, id]
  simp only [plus_of_nonneg, plus_of_nonpos, minus_of_nonneg, minus_of_nonpos, h1, h2, h3, h4, zero_mul,
    mul_zero, max_self, mul_neg, neg_mul, neg_neg, zero_add, add_zero, sub_zero, zero_sub, neg_zero]
  try (
    signProducts
    simp only [max_def]
    split_ifs <;> (try simp only [zero_mul, zero_add, add_zero]) <;> linarith)))

/-- The upper half of the block, in every sign case. -/
theorem block_upper (g h : Iv K) :
    (calcSubgrad g h).ul * h.a + (calcSubgrad g h).uu * h.b = Iv.kSup (Iv.maxForm id) g h := by
  unfold calcSubgrad Iv.kSup Iv.maxForm
  rcases sgK_weak g with ⟨e, h1, h2⟩ | ⟨e, h1, h2⟩ | ⟨e, h1, h2⟩ | ⟨e, h1, h2⟩ <;>
  rcases sgM_weak h with ⟨f, h3, h4⟩ | ⟨f, h3, h4⟩ | ⟨f, h3, h4⟩ | ⟨f, h3, h4⟩ <;>
  signCase

/-- The lower half of the block, away from the bad corner. -/
theorem block_lower (g h : Iv K) (hb : ¬ BadCorner g h) :
    (calcSubgrad g h).ll * h.a + (calcSubgrad g h).lu * h.b = Iv.kInf (Iv.maxForm id) g h := by
  unfold calcSubgrad Iv.kInf Iv.maxForm
  rcases sgK_weak g with ⟨e, h1, h2⟩ | ⟨e, h1, h2⟩ | ⟨e, h1, h2⟩ | ⟨e, h1, h2⟩ <;>
  rcases sgM_weak h with ⟨f, h3, h4⟩ | ⟨f, h3, h4⟩ | ⟨f, h3, h4⟩ | ⟨f, h3, h4⟩
  on_goal 16 =>
    have q : g.a * h.a ≤ g.b * h.b → g.b * h.b = 0 := fun hq => by
      by_contra hn
      exact hb ⟨h2, h1, h4, h3, hq, hn⟩
    simp only [e, f, Nat.reduceMul, Nat.reduceAdd, id]
    simp only [plus_of_nonneg, plus_of_nonpos, minus_of_nonneg, minus_of_nonpos, h1, h2, h3, h4, zero_mul,
      mul_zero, max_self, mul_neg, neg_mul, neg_neg, sub_zero, neg_zero]
    split_ifs with hq
    · simp only [zero_mul, add_zero]
      rw [max_eq_left hq.le]
    · have q0 := q (not_lt.1 hq)
      rw [max_eq_right (not_lt.1 hq)]
      linarith
  all_goals signCase

/-- In the bad corner the lower half has the wrong sign. -/
theorem block_lower_bad (g h : Iv K) (hb : BadCorner g h) :
    (calcSubgrad g h).ll * h.a + (calcSubgrad g h).lu * h.b = -Iv.kInf (Iv.maxForm id) g h ∧
    Iv.kInf (Iv.maxForm id) g h ≠ 0 := by
  obtain ⟨h2, h1, h4, h3, hq, hn⟩ := hb
  have gb : g.b < 0 := lt_of_le_of_ne h2 fun h => hn (by rw [h, zero_mul])
  have hhb : h.b < 0 := lt_of_le_of_ne h4 fun h => hn (by rw [h, mul_zero])
  have e : sgK g = 3 := by
    rcases sgK_cases g with ⟨e, c1, c2⟩ | ⟨e, c1, c2⟩ | ⟨e, c1, c2, -⟩ | ⟨e, c1, c2⟩
    · exact absurd c2 gb.not_gt
    · exact absurd c1 h1.not_gt
    · exact absurd c2 gb.not_ge
    · exact e
  have f : sgM h = 4 := by
    rcases sgM_cases h with ⟨e, c1, c2⟩ | ⟨e, c1, c2⟩ | ⟨e, c1, c2⟩ | ⟨e, c1, c2⟩
    · exact absurd c2 hhb.not_gt
    · exact absurd c1 h3.not_gt
    · exact absurd c2 hhb.not_ge
    · exact e
  unfold calcSubgrad Iv.kInf Iv.maxForm
  simp only [e, f, Nat.reduceMul, Nat.reduceAdd, id]
  simp only [plus_of_nonneg, plus_of_nonpos, minus_of_nonneg, minus_of_nonpos, h1, h2, h3, h4, zero_mul,
    mul_zero, max_self, mul_neg, neg_mul, neg_neg, sub_zero, neg_zero, hq.not_gt, if_false, zero_add,
    max_eq_right hq]
  exact ⟨trivial, hn⟩

/-- The block of one matrix entry, applied to the endpoints of `h`. -/
def blockApply (B : Block K) (h : Iv K) : K × K := (B.ll * h.a + B.lu * h.b, B.ul * h.a + B.uu * h.b)

/-- C47 (blocks), full statement: the block chosen by `calcSubgrad` maps the endpoints of `h` to the
endpoints of the Kaucher product `g * h`. -/
def C47_block_statement (g h : Iv K) : Prop :=
  IsKaucherProduct g h (blockApply (calcSubgrad g h) h).1 (blockApply (calcSubgrad g h) h).2

theorem isKaucherProduct_kForm (g h : Iv K) :
    IsKaucherProduct g h (Iv.kInf (Iv.maxForm id) g h) (Iv.kSup (Iv.maxForm id) g h) :=
  C14_mul_is_kaucher_product ⟨.kaucher, g.a, g.b⟩ h rfl

/-- The Kaucher product is unique. -/
theorem isKaucherProduct_unique {g h : Iv K} {u v u' v' : K} (h1 : IsKaucherProduct g h u v)
    (h2 : IsKaucherProduct g h u' v') : u = u' ∧ v = v' := by
  unfold IsKaucherProduct at h1 h2
  by_cases hg : g.a ≤ g.b
  · simp only [hg, if_true] at h1 h2
    exact ⟨h1.1.unique h2.1, h1.2.unique h2.2⟩
  · simp only [hg, if_false] at h1 h2
    exact ⟨h1.1.unique h2.1, h1.2.unique h2.2⟩

/-- C47 (blocks), partial: the claim holds for all signs of the endpoints, proper or improper, exactly
away from `BadCorner`.  Missing: pairs of improper intervals around zero whose winning product is
`g.b * h.b`, on which the code's `-a.b` makes the claim false. -/
theorem C47_block_partial (g h : Iv K) : C47_block_statement g h ↔ ¬ BadCorner g h := by
  constructor
  · intro hs hb
    have hu := isKaucherProduct_unique hs (isKaucherProduct_kForm g h)
    obtain ⟨e, hne⟩ := block_lower_bad g h hb
    have := hu.1
    simp only [blockApply] at this
    rw [e] at this
    exact hne (by linarith)
  · intro hb
    unfold C47_block_statement blockApply
    rw [block_upper, block_lower g h hb]
    exact isKaucherProduct_kForm g h

/-- C47 (blocks): for an entry that is a proper interval, in whatever class, and any `h`, the block is
right. -/
theorem C47_block_proper (g h : Iv K) (hg : g.a ≤ g.b) : C47_block_statement g h := by
  rw [C47_block_partial]
  rintro ⟨h1, h2, -, -, -, hn⟩
  exact hn (by rw [le_antisymm h1 (h2.trans hg), zero_mul])

/-- C47 (blocks): false as stated, `g = [1, -2]`, `h = [1, -1]`: the product is `[2, -2]`, the block
gives `[-2, -2]`. -/
theorem C47_block_false : ∃ g h : Iv ℚ, WF g ∧ WF h ∧
    g.mul Rnd.exact h = ⟨.kaucher, 2, -2⟩ ∧ blockApply (calcSubgrad g h) h = (-2, -2) ∧
    ¬ C47_block_statement g h := by
  refine ⟨⟨.kaucher, 1, -2⟩, ⟨.kaucher, 1, -1⟩, by simp [WF], by simp [WF], ?_, ?_, ?_⟩
  · norm_num [Iv.mul, Iv.mulMax, Iv.kInf, Iv.kSup, Iv.maxForm, Iv.plus, Iv.minus]
  · decide +kernel
  · rw [C47_block_partial]
    norm_num [BadCorner]

/-! ## Residuals -/

/-- `X` is a formal (algebraic) solution of `A X = b`: every row of Kaucher products sums to `b`. -/
def FormalSolution {n : Nat} (A : Fin n → Fin n → Iv K) (X b : Fin n → Iv K) : Prop :=
  ∀ i, ∃ U V : Fin n → K, (∀ j, IsKaucherProduct (A i j) (X j) (U j) (V j)) ∧
    ∑ j, U j = (b i).a ∧ ∑ j, V j = (b i).b

/-- Lower end of the Kaucher product, in closed form. -/
def kLo (g h : Iv K) : K := Iv.kInf (Iv.maxForm id) g h
/-- Upper end of the Kaucher product, in closed form. -/
def kHi (g h : Iv K) : K := Iv.kSup (Iv.maxForm id) g h

theorem formalSolution_iff {n : Nat} (A : Fin n → Fin n → Iv K) (X b : Fin n → Iv K) :
    FormalSolution A X b ↔ ∀ i, ∑ j, kLo (A i j) (X j) = (b i).a ∧ ∑ j, kHi (A i j) (X j) = (b i).b := by
  constructor
  · intro h i
    obtain ⟨U, V, hp, hu, hv⟩ := h i
    have e : ∀ j, U j = kLo (A i j) (X j) ∧ V j = kHi (A i j) (X j) := fun j =>
      isKaucherProduct_unique (hp j) (isKaucherProduct_kForm _ _)
    rw [← hu, ← hv]
    exact ⟨Finset.sum_congr rfl fun j _ => (e j).1.symm, Finset.sum_congr rfl fun j _ => (e j).2.symm⟩
  · intro h i
    exact ⟨_, _, fun j => isKaucherProduct_kForm _ _, h i⟩

/-- The code's `g * h` for `h = Interval(l, r, sortQ=False)` is the Kaucher product. -/
theorem mul_mkIv (g : Iv K) (hg : WF g) (l r : K) :
    (g.mul Rnd.exact (mkIv l r)).a = kLo g (mkIv l r) ∧ (g.mul Rnd.exact (mkIv l r)).b = kHi g (mkIv l r) := by
  obtain ⟨c, a, b⟩ := g
  cases c
  · have hab : a ≤ b := hg rfl
    by_cases hlr : l ≤ r
    · have e : mkIv l r = ⟨.classical, l, r⟩ := if_pos hlr
      have := mulMax_eq_mulCC (⟨.classical, a, b⟩ : Iv K) ⟨.classical, l, r⟩ hab hlr
      rw [e]
      exact ⟨this.1.symm, this.2.symm⟩
    · have e : mkIv l r = ⟨.kaucher, l, r⟩ := if_neg hlr
      have := mulSum_eq_mulMax (⟨.classical, a, b⟩ : Iv K) ⟨.kaucher, l, r⟩ hab
        (fun hh => hlr (hh.2.1.le.trans hh.2.2.le))
      rw [e]
      change (Iv.mulSum _ _ _).a = _ ∧ (Iv.mulSum _ _ _).b = _
      rw [this]
      exact ⟨rfl, rfl⟩
  · exact ⟨rfl, rfl⟩

theorem add_exact_ends (X Y : Iv K) :
    (X.add Rnd.exact Y).a = X.a + Y.a ∧ (X.add Rnd.exact Y).b = X.b + Y.b := by
  unfold Iv.add
  cases X.cls <;> exact ⟨rfl, rfl⟩

theorem foldl_add_ends {ι : Type*} (f : ι → Iv K) (L : List ι) (s : Iv K) :
    (L.foldl (fun s j => s.add Rnd.exact (f j)) s).a = s.a + (L.map fun j => (f j).a).sum ∧
    (L.foldl (fun s j => s.add Rnd.exact (f j)) s).b = s.b + (L.map fun j => (f j).b).sum := by
  induction L generalizing s with
  | nil => simp
  | cons j L ih =>
      obtain ⟨h1, h2⟩ := ih (s.add Rnd.exact (f j))
      simp only [List.foldl_cons, List.map_cons, List.sum_cons, h1, h2, add_exact_ends, add_assoc, and_self]

theorem rowSum_ends {n : Nat} (A : Fin n → Fin n → Iv K) (hA : ∀ i j, WF (A i j)) (x : Dbl2 n → K)
    (i : Fin n) : (rowSum Rnd.exact A x i).a = ∑ j, kLo (A i j) (ivAt x j) ∧
      (rowSum Rnd.exact A x i).b = ∑ j, kHi (A i j) (ivAt x j) := by
  unfold rowSum
  obtain ⟨h1, h2⟩ := foldl_add_ends (fun j => (A i j).mul Rnd.exact (ivAt x j)) (List.finRange n)
    ⟨.classical, 0, 0⟩
  have e : ∀ j, ((A i j).mul Rnd.exact (ivAt x j)).a = kLo (A i j) (ivAt x j) ∧
      ((A i j).mul Rnd.exact (ivAt x j)).b = kHi (A i j) (ivAt x j) := fun j => mul_mkIv _ (hA i j) _ _
  rw [h1, h2]
  simp only [zero_add, e]
  exact ⟨by rw [← List.ofFn_eq_map, List.sum_ofFn], by rw [← List.ofFn_eq_map, List.sum_ofFn]⟩

theorem opp_ends (X : Iv K) : X.opp.a = -X.a ∧ X.opp.b = -X.b := by
  unfold Iv.opp; split_ifs <;> exact ⟨rfl, rfl⟩

theorem resVec_ends {n : Nat} (A : Fin n → Fin n → Iv K) (hA : ∀ i j, WF (A i j)) (b : Fin n → Iv K)
    (x : Dbl2 n → K) (i : Fin n) :
    resVec Rnd.exact A b x (.inl i) = ∑ j, kLo (A i j) (ivAt x j) - (b i).a ∧
    resVec Rnd.exact A b x (.inr i) = ∑ j, kHi (A i j) (ivAt x j) - (b i).b := by
  obtain ⟨h1, h2⟩ := rowSum_ends A hA x i
  simp only [resVec, rowRes, add_exact_ends, opp_ends, h1, h2, sub_eq_add_neg, and_self]

/-- C47 (residual): in exact arithmetic the residual vector computed by the loop is zero if and only if
the iterate, read as an interval vector, is a formal solution. -/
theorem C47_residual {n : Nat} (A : Fin n → Fin n → Iv K) (hA : ∀ i j, WF (A i j)) (b : Fin n → Iv K)
    (x : Dbl2 n → K) :
    resVec Rnd.exact A b x = 0 ↔ FormalSolution A (fun j => ivAt x j) b := by
  rw [formalSolution_iff]
  constructor
  · intro h i
    obtain ⟨h1, h2⟩ := resVec_ends A hA b x i
    rw [h] at h1 h2
    simp only [Pi.zero_apply] at h1 h2
    exact ⟨by linarith, by linarith⟩
  · intro h
    funext k
    rcases k with i | i
    · rw [(resVec_ends A hA b x i).1, (h i).1, sub_self]; rfl
    · rw [(resVec_ends A hA b x i).2, (h i).2, sub_self]; rfl

theorem foldl_sum {ι : Type*} (f : ι → K) (L : List ι) (r : K) :
    L.foldl (fun r i => r + f i) r = r + (L.map f).sum := by
  induction L generalizing r with
  | nil => simp
  | cons j L ih => simp only [List.foldl_cons, ih, List.map_cons, List.sum_cons, add_assoc]

theorem resSum_eq (R : Rnd K) {n : Nat} (A : Fin n → Fin n → Iv K) (b : Fin n → Iv K) (x : Dbl2 n → K) :
    resSum R A b x = ∑ i, (rowRes R A b x i).mag := by
  unfold resSum
  rw [foldl_sum, zero_add, ← List.ofFn_eq_map, List.sum_ofFn]

/-- The scalar residual `r` vanishes exactly with the residual vector, and is never negative. -/
theorem resSum_zero (R : Rnd K) {n : Nat} (A : Fin n → Fin n → Iv K) (b : Fin n → Iv K) (x : Dbl2 n → K) :
    0 ≤ resSum R A b x ∧ (resSum R A b x = 0 ↔ resVec R A b x = 0) := by
  have h0 : ∀ i ∈ Finset.univ, 0 ≤ (rowRes R A b x i).mag := fun i _ =>
    (abs_nonneg _).trans (le_max_left _ _)
  rw [resSum_eq]
  refine ⟨Finset.sum_nonneg h0, ?_⟩
  rw [Finset.sum_eq_zero_iff_of_nonneg h0]
  constructor
  · intro h
    funext k
    have hz : ∀ i, (rowRes R A b x i).a = 0 ∧ (rowRes R A b x i).b = 0 := fun i => by
      have := h i (Finset.mem_univ i)
      unfold Iv.mag at this
      exact ⟨abs_eq_zero.1 (le_antisymm (this ▸ le_max_left _ _) (abs_nonneg _)),
        abs_eq_zero.1 (le_antisymm (this ▸ le_max_right _ _) (abs_nonneg _))⟩
    rcases k with i | i
    · exact (hz i).1
    · exact (hz i).2
  · intro h i _
    have ha : (rowRes R A b x i).a = 0 := congrFun h (.inl i)
    have hb : (rowRes R A b x i).b = 0 := congrFun h (.inr i)
    unfold Iv.mag
    rw [ha, hb, abs_zero, max_self]

/-! ## The loop -/

/-- What is assumed of `np.linalg.solve`: in exact arithmetic it returns the solution of a nonsingular
system and raises on a singular one. -/
def SolveOK {n : Nat} (solve : Solver K n) : Prop :=
  ∀ F y, (IsUnit (Matrix.of F).det → ∃ z, solve F y = .ok z) ∧
    ∀ z, solve F y = .ok z → IsUnit (Matrix.of F).det ∧ (Matrix.of F).mulVec z = y

theorem stepNorm_pos {n : Nat} (normMin : K) (h : 0 ≤ normMin) (xx : Dbl2 n → K) :
    0 < stepNorm normMin xx := by
  unfold stepNorm
  dsimp only
  split_ifs with hq
  · exact one_pos
  · exact h.trans_lt (not_le.1 hq)

theorem newtonStep_of_zero (R : Rnd K) {n : Nat} {solve : Solver K n} (hs : SolveOK solve)
    {A : Fin n → Fin n → Iv K} {b : Fin n → Iv K} {tau : K} {x xx : Dbl2 n → K}
    (h : newtonStep R solve A b tau x = .ok xx) (hz : resVec R A b x = 0) : xx = x := by
  unfold newtonStep at h
  cases hd : solve (subgradMat A x) (resVec R A b x) with
  | error e => rw [hd] at h; cases h
  | ok d =>
      rw [hd] at h
      injection h with h
      obtain ⟨hu, hm⟩ := (hs _ _).2 d hd
      rw [hz] at hm
      have : d = 0 := by
        have := congrArg ((Matrix.of (subgradMat A x))⁻¹).mulVec hm
        rwa [Matrix.mulVec_mulVec, Matrix.nonsing_inv_mul _ hu, Matrix.one_mulVec, Matrix.mulVec_zero] at this
      rw [← h, this]
      funext k
      simp

/-- Successive Newton iterates, none of which met the stopping test. -/
inductive Unconverged (R : Rnd K) {n : Nat} (solve : Solver K n) (A : Fin n → Fin n → Iv K)
    (b : Fin n → Iv K) (tol tau normMin : K) : Nat → (Dbl2 n → K) → (Dbl2 n → K) → Prop
  | refl (x) : Unconverged R solve A b tol tau normMin 0 x x
  | step {k x y z} (h : newtonStep R solve A b tau x = .ok y)
      (hr : tol * stepNorm normMin y < resSum R A b x)
      (hrest : Unconverged R solve A b tol tau normMin k y z) :
      Unconverged R solve A b tol tau normMin (k + 1) x z

theorem subdiffLoop_spec (R : Rnd K) {n : Nat} (solve : Solver K n) (A : Fin n → Fin n → Iv K)
    (b : Fin n → Iv K) (tol tau normMin : K) (hn : 0 ≤ normMin) (fuel : Nat) (x xx : Dbl2 n → K)
    (h : subdiffLoop R solve A b tol tau normMin fuel x = .ok xx) :
    Unconverged R solve A b tol tau normMin fuel x xx ∨
    ∃ k < fuel, ∃ y, Unconverged R solve A b tol tau normMin k x y ∧
      newtonStep R solve A b tau y = .ok xx ∧ resSum R A b y ≤ tol * stepNorm normMin xx := by
  induction fuel generalizing x with
  | zero => cases h; exact Or.inl (.refl _)
  | succ fuel ih =>
      rw [subdiffLoop] at h
      cases hs : newtonStep R solve A b tau x with
      | error e => rw [hs] at h; cases h
      | ok y =>
          rw [hs] at h
          dsimp only at h
          have hq := stepNorm_pos normMin hn y
          split_ifs at h with ht
          · have hr : tol * stepNorm normMin y < resSum R A b x := (lt_div_iff₀ hq).1 ht
            rcases ih y h with h1 | ⟨k, hk, z, h1, h2⟩
            · exact Or.inl (.step hs hr h1)
            · exact Or.inr ⟨k + 1, Nat.succ_lt_succ hk, z, .step hs hr h1, h2⟩
          · cases h
            exact Or.inr ⟨0, Nat.succ_pos _, x, .refl _, hs, (div_le_iff₀ hq).1 (not_lt.1 ht)⟩

/-- C47 (stopping): with an exact solver, if the loop ends before the iteration limit under a
nonpositive tolerance (so that only a zero residual can stop it), the returned vector is a formal solution.
With the other outcome the limit `maxiter` was reached and every iterate had a nonzero residual. -/
theorem C47_zero_residual {n : Nat} (solve : Solver K n) (hs : SolveOK solve) (A : Fin n → Fin n → Iv K)
    (hA : ∀ i j, WF (A i j)) (b : Fin n → Iv K) (tol tau normMin : K) (ht : tol ≤ 0) (hn : 0 ≤ normMin)
    (maxiter : Int) (X : Fin n → Iv K)
    (h : subdiff Rnd.exact solve A b tol maxiter tau normMin = .ok X) :
    FormalSolution A X b ∨
    ∃ x0 xx, (Matrix.of (superMatrix Rnd.exact A)).mulVec x0 = Sum.elim (fun i => (b i).a) (fun i => (b i).b) ∧
      Unconverged Rnd.exact solve A b tol tau normMin (maxiter + 1).toNat x0 xx ∧ X = fun j => ivAt xx j := by
  unfold subdiff at h
  rw [dif_pos rfl, dif_pos rfl] at h
  change subdiffSq Rnd.exact solve A b tol maxiter tau normMin = .ok X at h
  unfold subdiffSq at h
  cases h0 : solve (superMatrix Rnd.exact A) (Sum.elim (fun i => (b i).a) (fun i => (b i).b)) with
  | error e => rw [h0] at h; cases h
  | ok x0 =>
      rw [h0] at h
      dsimp only at h
      cases hl : subdiffLoop Rnd.exact solve A b tol tau normMin (maxiter + 1).toNat x0 with
      | error e => rw [hl] at h; cases h
      | ok xx =>
          rw [hl] at h
          injection h with h
          rcases subdiffLoop_spec _ _ _ _ _ _ _ hn _ _ _ hl with h1 | ⟨k, hk, y, h1, h2, h3⟩
          · exact Or.inr ⟨x0, xx, ((hs _ _).2 _ h0).2, h1, h.symm⟩
          · left
            obtain ⟨hge, hz⟩ := resSum_zero Rnd.exact A b y
            have h4 : tol * stepNorm normMin xx ≤ 0 :=
              mul_nonpos_of_nonpos_of_nonneg ht (stepNorm_pos normMin hn xx).le
            have hv := hz.1 (le_antisymm (h3.trans h4) hge)
            have e := newtonStep_of_zero _ hs h2 hv
            rw [← h, e]
            exact (C47_residual A hA b y).1 hv

/-- C47 (shape): a matrix that is not square, or a right-hand side of another length, is rejected. -/
theorem C47_not_square (R : Rnd K) {n m k : Nat} (solve : Solver K n) (A : Fin n → Fin m → Iv K)
    (b : Fin k → Iv K) (tol : K) (maxiter : Int) (tau normMin : K) (h : ¬ (n = m ∧ m = k)) :
    subdiff R solve A b tol maxiter tau normMin = .error .assertionError := by
  unfold subdiff
  split_ifs with h1 h2
  · exact absurd ⟨h1, h2⟩ h
  · rfl
  · rfl

/-- The subgradient matrix applied to the iterate gives the row sums. -/
theorem subgradMat_mulVec {n : Nat} (A : Fin n → Fin n → Iv K) (x : Dbl2 n → K)
    (hb : ∀ i j, ¬ BadCorner (A i j) (ivAt x j)) (i : Fin n) :
    (Matrix.of (subgradMat A x)).mulVec x (.inl i) = ∑ j, kLo (A i j) (ivAt x j) ∧
    (Matrix.of (subgradMat A x)).mulVec x (.inr i) = ∑ j, kHi (A i j) (ivAt x j) := by
  have ea : ∀ j, (ivAt x j).a = x (.inl j) ∧ (ivAt x j).b = x (.inr j) := fun j => by
    unfold ivAt mkIv; split_ifs <;> exact ⟨rfl, rfl⟩
  constructor
  · simp only [Matrix.mulVec, dotProduct, Fintype.sum_sum_type, Matrix.of_apply, subgradMat]
    rw [← Finset.sum_add_distrib]
    refine Finset.sum_congr rfl fun j _ => ?_
    rw [← (ea j).1, ← (ea j).2]
    exact block_lower _ _ (hb i j)
  · simp only [Matrix.mulVec, dotProduct, Fintype.sum_sum_type, Matrix.of_apply, subgradMat]
    rw [← Finset.sum_add_distrib]
    refine Finset.sum_congr rfl fun j _ => ?_
    rw [← (ea j).1, ← (ea j).2]
    exact block_upper _ _

/-- `F x - (b.a, b.b)` is the residual vector. -/
theorem resVec_eq {n : Nat} (A : Fin n → Fin n → Iv K) (hA : ∀ i j, WF (A i j)) (b : Fin n → Iv K)
    (x : Dbl2 n → K) (hb : ∀ i j, ¬ BadCorner (A i j) (ivAt x j)) :
    resVec Rnd.exact A b x =
      (Matrix.of (subgradMat A x)).mulVec x - Sum.elim (fun i => (b i).a) (fun i => (b i).b) := by
  funext k
  rcases k with i | i
  · rw [(resVec_ends A hA b x i).1, Pi.sub_apply, (subgradMat_mulVec A x hb i).1]; rfl
  · rw [(resVec_ends A hA b x i).2, Pi.sub_apply, (subgradMat_mulVec A x hb i).2]; rfl

/-- C47 (finite convergence): a full Newton step (`tau = 1`) between two iterates with the same
subgradient matrix lands on a formal solution. -/
theorem C47_same_branch {n : Nat} (solve : Solver K n) (hs : SolveOK solve) (A : Fin n → Fin n → Iv K)
    (hA : ∀ i j, WF (A i j)) (b : Fin n → Iv K) (x xx : Dbl2 n → K)
    (hb : ∀ i j, ¬ BadCorner (A i j) (ivAt x j)) (hb' : ∀ i j, ¬ BadCorner (A i j) (ivAt xx j))
    (hstep : newtonStep Rnd.exact solve A b 1 x = .ok xx) (hF : subgradMat A xx = subgradMat A x) :
    FormalSolution A (fun j => ivAt xx j) b := by
  rw [← C47_residual A hA b xx, resVec_eq A hA b xx hb', hF]
  unfold newtonStep at hstep
  cases hd : solve (subgradMat A x) (resVec Rnd.exact A b x) with
  | error e => rw [hd] at hstep; cases hstep
  | ok d =>
      rw [hd] at hstep
      injection hstep with hstep
      obtain ⟨hu, hm⟩ := (hs _ _).2 d hd
      have : xx = x - d := by rw [← hstep]; funext k; simp
      rw [this, Matrix.mulVec_sub, hm, resVec_eq A hA b x hb]
      abel

/-- For a point matrix the starting matrix and every subgradient matrix coincide. -/
theorem point_superMatrix {n : Nat} (A : Fin n → Fin n → Iv K) (hp : ∀ i j, (A i j).a = (A i j).b)
    (x : Dbl2 n → K) : superMatrix Rnd.exact A = subgradMat A x := by
  have hm : ∀ i j, (A i j).mid Rnd.exact = (A i j).b := fun i j => by
    simp only [Iv.mid, Rnd.exact_nr, hp i j, id]; ring
  have hB : ∀ i j, calcSubgrad (A i j) (ivAt x j) =
      if 0 ≤ (A i j).b then ⟨(A i j).b, 0, 0, (A i j).b⟩ else ⟨0, (A i j).b, (A i j).b, 0⟩ := by
    intro i j
    generalize ivAt x j = h
    have e := hp i j
    generalize A i j = g at e
    unfold calcSubgrad
    rcases sgK_cases g with ⟨k, h1, h2⟩ | ⟨k, h1, h2⟩ | ⟨k, h1, h2, h3⟩ | ⟨k, h1, h2⟩
    · rcases sgM_cases h with ⟨f, -⟩ | ⟨f, -⟩ | ⟨f, -⟩ | ⟨f, -⟩ <;> simp only [k, f, e, h2.le, if_true]
    · rcases sgM_cases h with ⟨f, -⟩ | ⟨f, -⟩ | ⟨f, -⟩ | ⟨f, -⟩ <;>
        simp only [k, f, e, h2.not_ge, if_false]
    · exact absurd (e ▸ h3) (lt_irrefl _)
    · have h0 : g.b = 0 := le_antisymm h1 (e ▸ h2)
      have h0' : g.a = 0 := e.trans h0
      rcases sgM_cases h with ⟨f, -⟩ | ⟨f, -⟩ | ⟨f, -⟩ | ⟨f, -⟩ <;> simp [k, f, h0, h0']
  funext p q
  rcases p with i | i <;> rcases q with j | j <;> simp only [superMatrix, subgradMat, hm, hB] <;>
    split_ifs <;> rfl

/-- C47 (point matrices): for a point matrix whose extended matrix is nonsingular, `Subdiff` returns a
formal solution for every right-hand side (proper or improper), damping, tolerance and iteration limit. -/
theorem C47_point_matrix {n : Nat} (solve : Solver K n) (hs : SolveOK solve) (A : Fin n → Fin n → Iv K)
    (hp : ∀ i j, (A i j).a = (A i j).b) (b : Fin n → Iv K) (tol tau normMin : K) (ht : 0 ≤ tol)
    (maxiter : Int) (hdet : IsUnit (Matrix.of (superMatrix Rnd.exact A)).det) :
    ∃ X, subdiff Rnd.exact solve A b tol maxiter tau normMin = .ok X ∧ FormalSolution A X b := by
  have hA : ∀ i j, WF (A i j) := fun i j _ => (hp i j).le
  have hbad : ∀ (x : Dbl2 n → K) i j, ¬ BadCorner (A i j) (ivAt x j) := by
    rintro x i j ⟨h1, h2, -, -, -, hne⟩
    exact hne (by rw [le_antisymm h1 (hp i j ▸ h2), zero_mul])
  obtain ⟨x0, h0⟩ := (hs (superMatrix Rnd.exact A) (Sum.elim (fun i => (b i).a) (fun i => (b i).b))).1 hdet
  have hx0 := ((hs _ _).2 _ h0).2
  have hz : resVec Rnd.exact A b x0 = 0 := by
    rw [resVec_eq A hA b x0 (hbad x0), ← point_superMatrix A hp x0, hx0, sub_self]
  have hform := (C47_residual A hA b x0).1 hz
  refine ⟨fun j => ivAt x0 j, ?_, hform⟩
  unfold subdiff
  rw [dif_pos rfl, dif_pos rfl]
  change subdiffSq Rnd.exact solve A b tol maxiter tau normMin = _
  unfold subdiffSq
  rw [h0]
  dsimp only
  have hloop : subdiffLoop Rnd.exact solve A b tol tau normMin (maxiter + 1).toNat x0 = .ok x0 := by
    cases hf : (maxiter + 1).toNat with
    | zero => rfl
    | succ f =>
        rw [subdiffLoop]
        have hdet' : IsUnit (Matrix.of (subgradMat A x0)).det := by rwa [← point_superMatrix A hp x0]
        obtain ⟨d, hd⟩ := (hs (subgradMat A x0) (resVec Rnd.exact A b x0)).1 hdet'
        have hn : ∃ y, newtonStep Rnd.exact solve A b tau x0 = .ok y := by
          unfold newtonStep; rw [hd]; exact ⟨_, rfl⟩
        obtain ⟨y, hy⟩ := hn
        have e := newtonStep_of_zero _ hs hy hz
        subst e
        rw [hy]
        dsimp only
        rw [(resSum_zero _ A b _).2.2 hz, zero_div, if_neg (not_lt.2 ht)]
  rw [hloop]
  rfl

/-- An exact solver exists. -/
noncomputable def exactSolver (n : Nat) : Solver ℚ n := fun F y =>
  haveI := Classical.propDecidable (IsUnit (Matrix.of F).det)
  if IsUnit (Matrix.of F).det then .ok ((Matrix.of F)⁻¹.mulVec y) else .error .linAlgError

theorem exactSolver_ok (n : Nat) : SolveOK (exactSolver n) := by
  intro F y
  unfold exactSolver
  by_cases h : IsUnit (Matrix.of F).det
  · rw [if_pos h]
    refine ⟨fun _ => ⟨_, rfl⟩, fun z hz => ⟨h, ?_⟩⟩
    injection hz with hz
    rw [← hz, Matrix.mulVec_mulVec, Matrix.mul_nonsing_inv _ h, Matrix.one_mulVec]
  · rw [if_neg h]
    exact ⟨fun h' => absurd h' h, fun z hz => by cases hz⟩

/-- The hypotheses of the point-matrix theorem are met by `-2 x = [1, 3]`, whose formal solution is
`[-1/2, -3/2]`. -/
example : ∃ X, subdiff Rnd.exact (exactSolver 1) (fun _ _ : Fin 1 => ⟨.classical, -2, -2⟩)
      (fun _ : Fin 1 => ⟨.classical, 1, 3⟩) (1/100) 5 1 (1/1000) = .ok X ∧
    FormalSolution (fun _ _ : Fin 1 => ⟨.classical, -2, -2⟩) X (fun _ : Fin 1 => ⟨.classical, 1, 3⟩) := by
  refine C47_point_matrix _ (exactSolver_ok 1) _ (fun _ _ => rfl) _ _ _ _ (by norm_num) _ ?_
  refine isUnit_iff_ne_zero.2 ?_
  have e : Matrix.of (superMatrix Rnd.exact fun _ _ : Fin 1 => (⟨.classical, -2, -2⟩ : Iv ℚ)) =
      Matrix.fromBlocks 0 (-2 • (1 : Matrix (Fin 1) (Fin 1) ℚ)) (-2 • (1 : Matrix (Fin 1) (Fin 1) ℚ)) 0 := by
    ext p q
    rcases p with i | i <;> rcases q with j | j <;> fin_cases i <;> fin_cases j <;> decide +kernel
  have h2 : (Matrix.fromBlocks 0 (-2 • (1 : Matrix (Fin 1) (Fin 1) ℚ)) (-2 • (1 : Matrix (Fin 1) (Fin 1) ℚ)) 0) *
      (Matrix.fromBlocks 0 (-(1/2 : ℚ) • (1 : Matrix (Fin 1) (Fin 1) ℚ)) (-(1/2 : ℚ) • (1 : Matrix (Fin 1) (Fin 1) ℚ)) 0) = 1 := by
    ext p q
    rcases p with i | i <;> rcases q with j | j <;> fin_cases i <;> fin_cases j <;> decide +kernel
  rw [e]
  intro h0
  have := congrArg Matrix.det h2
  rw [Matrix.det_mul, h0, zero_mul, Matrix.det_one] at this
  exact zero_ne_one this

/-- A formal solution with an improper component: `[2, 4] * x = [3, 5]` has `x = [3/2, 5/4]`. -/
example : FormalSolution (fun _ _ : Fin 1 => (⟨.classical, 2, 4⟩ : Iv ℚ)) (fun _ => ⟨.kaucher, 3/2, 5/4⟩)
    (fun _ => ⟨.classical, 3, 5⟩) := by
  rw [formalSolution_iff]
  intro i
  norm_num [kLo, kHi, Iv.kInf, Iv.kSup, Iv.maxForm, Iv.plus, Iv.minus]

end IntvalPy
