import Verif.PropsArray
import Verif.PropsGauss

/-!
# Exact conditions for two array operations (C65, C72)
-/

set_option autoImplicit false
set_option linter.unusedSectionVars false

namespace IntvalPy
open Spec

variable {K : Type*} [Field K] [LinearOrder K] [IsStrictOrderedRing K]

/-- C65, when `del A[key]` works at all: only for an integer in range and for a list of exactly one integer in range.
Every other key raises, also those that `A[key]` accepts: a slice `TypeError`, a list of several indices `ValueError`,
an empty list `IndexError`. -/
theorem C65_when {α : Type*} (l : List α) (key : DelKey) :
    ((∃ l', delItem l key = .ok l') ↔
      ∃ i : ℤ, (key = .int i ∨ key = .list [i]) ∧ -(l.length : ℤ) ≤ i ∧ i < l.length) ∧
    (∀ s e, key = .slice s e → delItem l key = .error .typeError) ∧
    (key = .list [] → delItem l key = .error .indexError) ∧
    (∀ i j ks, key = .list (i :: j :: ks) → delItem l key = .error .valueError) ∧
    (∀ i, (key = .int i ∨ key = .list [i]) → ¬ (-(l.length : ℤ) ≤ i ∧ i < l.length) → delItem l key = .error .indexError) := by
  have one : ∀ i : ℤ, (∃ l', npDelete1 l i = .ok l') ↔ (-(l.length : ℤ) ≤ i ∧ i < l.length) := by
    intro i
    unfold npDelete1
    by_cases h : -(l.length : ℤ) ≤ i ∧ i < l.length
    · rw [if_pos h]; exact ⟨fun _ => h, fun _ => ⟨_, rfl⟩⟩
    · rw [if_neg h]
      constructor
      · rintro ⟨_, h'⟩; cases h'
      · exact fun h' => absurd h' h
  have two : ∀ i : ℤ, ¬ (-(l.length : ℤ) ≤ i ∧ i < l.length) → npDelete1 l i = .error .indexError := by
    intro i h
    unfold npDelete1
    rw [if_neg h]
  have several : ∀ i j ks, delItem l (.list (i :: j :: ks)) = .error .valueError := by
    intro i j ks
    have : (i :: j :: ks).getLast? = some ((i :: j :: ks).getLast (by simp)) := List.getLast?_eq_getLast_of_ne_nil (by simp)
    simp only [delItem, this]
    rw [if_neg (by simp)]
  refine ⟨?_, ?_, ?_, ?_, ?_⟩
  · cases key with
    | int i =>
      constructor
      · intro h
        exact ⟨i, Or.inl rfl, (one i).mp h⟩
      · rintro ⟨i', h | h, h2⟩
        · cases h; exact (one i).mpr h2
        · cases h
    | slice s e =>
      constructor
      · rintro ⟨_, h⟩; cases h
      · rintro ⟨i', h | h, -⟩ <;> cases h
    | list ks =>
      match ks with
      | [] =>
        constructor
        · rintro ⟨_, h⟩; cases h
        · rintro ⟨i', h | h, -⟩ <;> cases h
      | [i] =>
        constructor
        · intro h
          exact ⟨i, Or.inr rfl, (one i).mp h⟩
        · rintro ⟨i', h | h, h2⟩
          · cases h
          · cases h; exact (one i).mpr h2
      | i :: j :: ks =>
        constructor
        · rintro ⟨_, h⟩; rw [several] at h; cases h
        · rintro ⟨i', h | h, -⟩ <;> cases h
    | other =>
      constructor
      · rintro ⟨_, h⟩; cases h
      · rintro ⟨i', h | h, -⟩ <;> cases h
  · rintro s e rfl; rfl
  · rintro rfl; rfl
  · rintro i j ks rfl; exact several i j ks
  · rintro i (rfl | rfl) h
    · exact two i h
    · exact two i h

/-- `del A[[1, 2]]` raises although `A[[1, 2]]` is legal, `del A[[-1]]` works. -/
example : delItem [10, 20, 30] (.list [1, 2]) = .error .valueError ∧ (DelKey.list [1, 2]).Legal 3 ∧
    delItem [10, 20, 30] (.list [-1]) = .ok [10, 20] := by
  refine ⟨rfl, ?_, rfl⟩
  intro i hi
  simp only [List.mem_cons, List.not_mem_nil, or_false] at hi
  rcases hi with rfl | rfl <;> norm_num

/-- C72 for a divisor with zero in its interior: an interval is returned instead of an exception, whatever the rounding,
and it never encloses: the quotients by the nonzero members of the divisor are unbounded, unless the dividend is zero. -/
theorem C72_zero_inside (R : Rnd K) (X Y : Iv K) (hX : Ordinary X) (h1 : Y.a < 0) (h2 : 0 < Y.b)
    (hne : ¬ (X.a = 0 ∧ X.b = 0)) :
    ∃ Z, arrDivIv R X Y = .ok Z ∧ ∃ x ∈ X, ∃ y ∈ Y, y ≠ 0 ∧ x / y ∉ Z := by
  have hq : Iv.recip R Y.cls Y = .ok ⟨Y.cls, R.dn (1 / Y.b), R.up (1 / Y.a)⟩ := by
    rw [Iv.recip, if_neg h2.ne', if_neg h1.ne]
  refine ⟨_, by rw [arrDivIv, hq]; rfl, ?_⟩
  set Z := X.mul R ⟨Y.cls, R.dn (1 / Y.b), R.up (1 / Y.a)⟩ with hZ
  obtain ⟨x, hx, hx0⟩ : ∃ x ∈ X, x ≠ 0 := by
    by_cases ha : X.a = 0
    · exact ⟨X.b, ⟨hX.2, le_refl _⟩, fun hb => hne ⟨ha, hb⟩⟩
    · exact ⟨X.a, ⟨le_refl _, hX.2⟩, ha⟩
  refine ⟨x, hx, ?_⟩
  -- a positive quotient larger than the upper end of `Z`
  set B : K := max (|Z.b| + 1) (|x| / min Y.b (-Y.a)) with hB
  have hm : 0 < min Y.b (-Y.a) := lt_min h2 (by linarith)
  have hB1 : 0 < B := lt_of_lt_of_le (by positivity) (le_max_left _ _)
  have hsmall : |x / B| ≤ min Y.b (-Y.a) := by
    rw [abs_div, abs_of_pos hB1, div_le_iff₀ hB1]
    have := le_max_right (|Z.b| + 1) (|x| / min Y.b (-Y.a))
    rw [div_le_iff₀ hm] at this
    linarith [this, mul_comm B (min Y.b (-Y.a))]
  obtain ⟨s1, s2⟩ := abs_le.mp hsmall
  refine ⟨x / B, ⟨?_, ?_⟩, div_ne_zero hx0 hB1.ne', ?_⟩
  · have := min_le_right Y.b (-Y.a); linarith
  · have := min_le_left Y.b (-Y.a); linarith
  · rw [div_div_cancel₀ hx0]
    rintro ⟨-, h⟩
    have := le_max_left (|Z.b| + 1) (|x| / min Y.b (-Y.a))
    have := le_abs_self Z.b
    change B ≤ Z.b at h
    linarith

/-- The hypotheses hold for `[1, 2] / [-1, 2]`. -/
example : ∃ Z, arrDivIv Rnd.exact (⟨.classical, 1, 2⟩ : Iv ℚ) ⟨.classical, -1, 2⟩ = .ok Z ∧
    ∃ x ∈ (⟨.classical, 1, 2⟩ : Iv ℚ), ∃ y ∈ (⟨.classical, -1, 2⟩ : Iv ℚ), y ≠ 0 ∧ x / y ∉ Z :=
  C72_zero_inside Rnd.exact _ _ ⟨rfl, by norm_num⟩ (by norm_num) (by norm_num) (by norm_num)

end IntvalPy
