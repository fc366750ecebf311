import Verif.SpecKernel
import Verif.ModelKernel
import Mathlib.Algebra.Order.Group.MinMax
import Mathlib.Tactic.Ring
import Mathlib.Tactic.FieldSimp
import Mathlib.Tactic.Positivity
import Mathlib.Algebra.Order.Floor.Ring
import Mathlib.Data.Rat.Floor
import Mathlib.Algebra.Order.Ring.Pow
import Mathlib.Algebra.Ring.Parity
import Mathlib.Tactic.NormNum

/-!
# Helper lemmas about products, quotients and powers on intervals
-/

set_option linter.unusedSectionVars false

set_option autoImplicit false

namespace IntvalPy
open Spec

variable {K : Type*} [Field K] [LinearOrder K] [IsStrictOrderedRing K]

/-- A product of points is at least the least corner product. -/
theorem min4_le_mul {a b c d x y : K} (hx : a ≤ x ∧ x ≤ b) (hy : c ≤ y ∧ y ≤ d) :
    min (min (min (a * c) (a * d)) (b * c)) (b * d) ≤ x * y := by
  obtain ⟨h1, h2⟩ := hx
  obtain ⟨h3, h4⟩ := hy
  have key : ∀ t : K, min (t * c) (t * d) ≤ t * y := by
    intro t
    rcases le_total 0 t with h | h
    · exact (min_le_left _ _).trans (mul_le_mul_of_nonneg_left h3 h)
    · exact (min_le_right _ _).trans (mul_le_mul_of_nonpos_left h4 h)
  have key2 : min (a * y) (b * y) ≤ x * y := by
    rcases le_total 0 y with h | h
    · exact (min_le_left _ _).trans (mul_le_mul_of_nonneg_right h1 h)
    · exact (min_le_right _ _).trans (mul_le_mul_of_nonpos_right h2 h)
  refine le_trans ?_ key2
  rw [min_assoc]
  exact min_le_min (key a) (key b)

/-- A product of points is at most the greatest corner product. -/
theorem mul_le_max4 {a b c d x y : K} (hx : a ≤ x ∧ x ≤ b) (hy : c ≤ y ∧ y ≤ d) :
    x * y ≤ max (max (max (a * c) (a * d)) (b * c)) (b * d) := by
  have h := min4_le_mul (a := -b) (b := -a) (x := -x) ⟨neg_le_neg hx.2, neg_le_neg hx.1⟩ hy
  have e : min (min (min (-b * c) (-b * d)) (-a * c)) (-a * d)
      = - max (max (max (a * c) (a * d)) (b * c)) (b * d) := by
    simp only [neg_mul, min_neg_neg]
    congr 1
    simp only [max_assoc, max_comm, max_left_comm]
  rw [e] at h
  linarith [neg_mul x y]

theorem Rnd.min_dn (R : Rnd K) (x y : K) : min (R.dn x) (R.dn y) = R.dn (min x y) :=
  (R.dn_mono.map_min).symm

theorem Rnd.max_up (R : Rnd K) (x y : K) : max (R.up x) (R.up y) = R.up (max x y) :=
  (R.up_mono.map_max).symm

theorem Rnd.max_dn (R : Rnd K) (x y : K) : max (R.dn x) (R.dn y) = R.dn (max x y) :=
  (R.dn_mono.map_max).symm

theorem Rnd.min_up (R : Rnd K) (x y : K) : min (R.up x) (R.up y) = R.up (min x y) :=
  (R.up_mono.map_min).symm

theorem containsNum_iff {X : Iv K} {c : K} : X.containsNum c = true ↔ c ∈ X := by
  simp [Iv.containsNum, Iv.mem_def]

theorem not_mem_zero_cases {X : Iv K} (h : X.a ≤ X.b) (h0 : ¬ (0 : K) ∈ X) :
    0 < X.a ∨ X.b < 0 := by
  rw [Iv.mem_def] at h0
  rcases lt_or_ge 0 X.a with h1 | h1
  · exact Or.inl h1
  · right
    by_contra h2
    exact h0 ⟨h1, not_lt.mp h2⟩

/-- Reciprocals of points of a zero-free interval lie between the reciprocal endpoints. -/
theorem inv_mem_of {a b y : K} (h : 0 < a ∨ b < 0) (hy : a ≤ y ∧ y ≤ b) :
    1 / b ≤ 1 / y ∧ 1 / y ≤ 1 / a := by
  rcases h with h | h
  · have hy0 : 0 < y := lt_of_lt_of_le h hy.1
    exact ⟨one_div_le_one_div_of_le hy0 hy.2, one_div_le_one_div_of_le h hy.1⟩
  · have hy0 : y < 0 := lt_of_le_of_lt hy.2 h
    have ha0 : a < 0 := lt_of_le_of_lt hy.1 hy0
    exact ⟨one_div_le_one_div_of_neg_of_le h hy.2, one_div_le_one_div_of_neg_of_le hy0 hy.1⟩

end IntvalPy

namespace IntvalPy
open Spec

section pow
variable {K : Type*} [Field K] [LinearOrder K] [IsStrictOrderedRing K]

theorem pow_le_max_of_even {a b x : K} {n : ℕ} (hn : Even n) (hx : a ≤ x ∧ x ≤ b) :
    x ^ n ≤ max (a ^ n) (b ^ n) := by
  rcases le_total 0 x with h | h
  · exact (pow_le_pow_left₀ h hx.2 n).trans (le_max_right _ _)
  · have : (-x) ^ n ≤ (-a) ^ n := pow_le_pow_left₀ (by linarith) (by linarith [hx.1]) n
    rw [hn.neg_pow, hn.neg_pow] at this
    exact this.trans (le_max_left _ _)

theorem pow_mem_corners {a b x : K} {n : ℕ} (hx : a ≤ x ∧ x ≤ b)
    (h : ¬ (n % 2 = 0 ∧ (a ≤ 0 ∧ 0 ≤ b))) :
    min (a ^ n) (b ^ n) ≤ x ^ n ∧ x ^ n ≤ max (a ^ n) (b ^ n) := by
  rcases Nat.even_or_odd n with hn | hn
  · have h0 : ¬ (a ≤ 0 ∧ 0 ≤ b) := fun h' => h ⟨Nat.even_iff.mp hn, h'⟩
    refine ⟨?_, pow_le_max_of_even hn hx⟩
    rcases lt_or_ge 0 a with ha | ha
    · exact (min_le_left _ _).trans (pow_le_pow_left₀ ha.le hx.1 n)
    · have hb : b < 0 := by
        by_contra hb; exact h0 ⟨ha, not_lt.mp hb⟩
      have : (-b) ^ n ≤ (-x) ^ n := pow_le_pow_left₀ (by linarith) (by linarith [hx.2]) n
      rw [hn.neg_pow, hn.neg_pow] at this
      exact (min_le_right _ _).trans this
  · exact ⟨(min_le_left _ _).trans (hn.strictMono_pow.monotone hx.1),
      (hn.strictMono_pow.monotone hx.2).trans (le_max_right _ _)⟩

end pow

section grid

/-- Rounding to multiples of `1/d`: a concrete non-trivial rounding used in examples and witnesses. -/
def Rnd.grid (d : ℕ) (hd : 0 < d) : Rnd ℚ where
  dn x := ⌊(d : ℚ) * x⌋ / d
  up x := ⌈(d : ℚ) * x⌉ / d
  nr x := ⌊(d : ℚ) * x + 1 / 2⌋ / d
  dn_le x := by
    have hd' : (0 : ℚ) < d := by exact_mod_cast hd
    rw [div_le_iff₀ hd', mul_comm x]; exact Int.floor_le _
  le_up x := by
    have hd' : (0 : ℚ) < d := by exact_mod_cast hd
    rw [le_div_iff₀ hd', mul_comm x]; exact Int.le_ceil _
  dn_mono x y h := by
    have hd' : (0 : ℚ) < d := by exact_mod_cast hd
    have : ⌊(d : ℚ) * x⌋ ≤ ⌊(d : ℚ) * y⌋ := Int.floor_mono (by nlinarith)
    exact div_le_div_of_nonneg_right (by exact_mod_cast this) hd'.le
  up_mono x y h := by
    have hd' : (0 : ℚ) < d := by exact_mod_cast hd
    have : ⌈(d : ℚ) * x⌉ ≤ ⌈(d : ℚ) * y⌉ := Int.ceil_mono (by nlinarith)
    exact div_le_div_of_nonneg_right (by exact_mod_cast this) hd'.le
  dn_le_nr x := by
    have hd' : (0 : ℚ) < d := by exact_mod_cast hd
    have : ⌊(d : ℚ) * x⌋ ≤ ⌊(d : ℚ) * x + 1 / 2⌋ := Int.floor_mono (by linarith)
    exact div_le_div_of_nonneg_right (by exact_mod_cast this) hd'.le
  nr_le_up x := by
    have hd' : (0 : ℚ) < d := by exact_mod_cast hd
    have : ⌊(d : ℚ) * x + 1 / 2⌋ ≤ ⌈(d : ℚ) * x⌉ := by
      rw [← Int.lt_add_one_iff, Int.floor_lt]
      push_cast
      linarith [Int.le_ceil ((d : ℚ) * x)]
    exact div_le_div_of_nonneg_right (by exact_mod_cast this) hd'.le
  dn_zero := by simp
  up_zero := by simp

end grid

end IntvalPy
