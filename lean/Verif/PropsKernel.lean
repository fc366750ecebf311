import Verif.ProofsKernel

/-!
# C01 - C06, C11: classical interval arithmetic encloses, and is sharp without rounding

Every statement quantifies over an arbitrary directed rounding `R : Rnd K`.
-/

set_option linter.unusedSectionVars false
set_option linter.unusedVariables false

set_option autoImplicit false

namespace IntvalPy
open Spec

variable {K : Type*} [Field K] [LinearOrder K] [IsStrictOrderedRing K]

/-! ## C01 -/

/-- C01: `X + Y` encloses all pointwise sums, for every directed rounding and both classes. -/
theorem C01_add_encloses (R : Rnd K) (X Y : Iv K) :
    Encloses (X.add R Y) (fun s => ∃ x ∈ X, ∃ y ∈ Y, s = x + y) := by
  rintro s ⟨x, hx, y, hy, rfl⟩
  rw [Iv.mem_def] at *
  unfold Iv.add
  cases X.cls <;>
  exact ⟨(R.dn_le _).trans (add_le_add hx.1 hy.1), (add_le_add hx.2 hy.2).trans (R.le_up _)⟩

/-- C01: `X - Y` encloses all pointwise differences. -/
theorem C01_sub_encloses (R : Rnd K) (X Y : Iv K) :
    Encloses (X.sub R Y) (fun s => ∃ x ∈ X, ∃ y ∈ Y, s = x - y) := by
  rintro s ⟨x, hx, y, hy, rfl⟩
  rw [Iv.mem_def] at *
  unfold Iv.sub
  cases X.cls <;>
  exact ⟨(R.dn_le _).trans (sub_le_sub hx.1 hy.2), (sub_le_sub hx.2 hy.1).trans (R.le_up _)⟩

/-- C01: `-X` is the exact range of negation. -/
theorem C01_neg_range (X : Iv K) (hX : X.a ≤ X.b) :
    IsRange X.neg (fun s => ∃ x ∈ X, s = -x) := by
  refine ⟨?_, ⟨X.b, ⟨hX, le_refl _⟩, rfl⟩, ⟨X.a, ⟨le_refl _, hX⟩, rfl⟩⟩
  rintro s ⟨x, hx, rfl⟩
  exact ⟨neg_le_neg hx.2, neg_le_neg hx.1⟩

/-- C01: sums and differences of ordinary intervals are ordinary intervals again. -/
theorem C01_add_sub_ordinary (R : Rnd K) (X Y : Iv K) (hX : Ordinary X) (hY : Ordinary Y) :
    Ordinary (X.add R Y) ∧ Ordinary (X.sub R Y) := by
  obtain ⟨cx, hx⟩ := hX
  obtain ⟨cy, hy⟩ := hY
  simp only [Ordinary, Iv.add, Iv.sub, cx, cy, true_and]
  exact ⟨(R.dn_le _).trans ((add_le_add hx hy).trans (R.le_up _)),
    (R.dn_le _).trans ((sub_le_sub hx hy).trans (R.le_up _))⟩

example : (2 : ℚ) ∈ Iv.add (Rnd.grid 10 (by norm_num)) ⟨.classical, 1/3, 1⟩ ⟨.classical, 0, 1⟩ :=
  C01_add_encloses _ _ _ _ ⟨1, by norm_num [Iv.mem_def], 1, by norm_num [Iv.mem_def], by norm_num⟩

example : Ordinary (⟨.classical, 1/3, 1⟩ : Iv ℚ) := ⟨rfl, by norm_num⟩

/-! ## C02 -/

/-- C02: the product of two ordinary intervals encloses all pointwise products. -/
theorem C02_mul_encloses (R : Rnd K) (X Y : Iv K) (hX : Ordinary X) (hY : Ordinary Y) :
    Encloses (X.mul R Y) (fun s => ∃ x ∈ X, ∃ y ∈ Y, s = x * y) := by
  rintro s ⟨x, hx, y, hy, rfl⟩
  simp only [Iv.mul, hX.1, hY.1, Iv.mulCC, Iv.mem_def, Rnd.min_dn, Rnd.max_up]
  exact ⟨(R.dn_le _).trans (min4_le_mul hx hy), (mul_le_max4 hx hy).trans (R.le_up _)⟩

/-- C02: the product of two ordinary intervals is an ordinary interval. -/
theorem C02_mul_ordinary (R : Rnd K) (X Y : Iv K) (hX : Ordinary X) (hY : Ordinary Y) :
    Ordinary (X.mul R Y) := by
  have h := C02_mul_encloses R X Y hX hY (X.a * Y.a)
    ⟨X.a, ⟨le_refl _, hX.2⟩, Y.a, ⟨le_refl _, hY.2⟩, rfl⟩
  exact ⟨by simp [Iv.mul, hX.1, hY.1, Iv.mulCC], h.1.trans h.2⟩

example : Iv.mul (Rnd.grid 10 (by norm_num)) ⟨.classical, (-1/3 : ℚ), 1⟩ ⟨.classical, -1, 1/3⟩
    = ⟨.classical, -1, 4/10⟩ := by
  norm_num [Iv.mul, Iv.mulCC, Rnd.grid, Int.floor_eq_iff, Int.ceil_eq_iff]

/-! ## C03 -/

/-- C03: division of ordinary intervals raises `ValueError` exactly when the divisor contains zero
and succeeds in all other cases (so no other exception is possible). -/
theorem C03_div_error_iff (R : Rnd K) (X Y : Iv K) (hX : Ordinary X) (hY : Ordinary Y) :
    (X.div R Y = .error .valueError ↔ (0 : K) ∈ Y) ∧
    ((∃ Z, X.div R Y = .ok Z ∧ Ordinary Z) ↔ ¬ (0 : K) ∈ Y) := by
  by_cases h0 : (0 : K) ∈ Y
  · have : X.div R Y = .error .valueError := by
      simp [Iv.div, containsNum_iff.mpr h0]
    simp [this, h0]
  · have hc : Y.containsNum 0 = false := by
      simpa using fun h => h0 (containsNum_iff.mp h)
    have ha : Y.a ≠ 0 := fun h => h0 ⟨h.le, h ▸ hY.2⟩
    have hb : Y.b ≠ 0 := fun h => h0 ⟨h ▸ hY.2, h.ge⟩
    have : X.div R Y = .ok (Iv.divCC R X Y) := by
      simp [Iv.div, hc, hX.1, hY.1, ha, hb]
    simp only [this, h0, not_false_eq_true, iff_true, reduceCtorEq, Except.ok.injEq,
      exists_eq_left', true_and]
    refine ⟨rfl, ?_⟩
    calc (Iv.divCC R X Y).a ≤ R.dn (X.a / Y.a) := by
            simp only [Iv.divCC, min_le_iff, le_refl, true_or]
      _ ≤ X.a / Y.a := R.dn_le _
      _ ≤ R.up (X.a / Y.a) := R.le_up _
      _ ≤ _ := by simp only [Iv.divCC, le_max_iff, le_refl, true_or]

/-- C03: a successful division of ordinary intervals encloses all pointwise quotients. -/
theorem C03_div_encloses (R : Rnd K) (X Y Z : Iv K) (hX : Ordinary X) (hY : Ordinary Y)
    (h : X.div R Y = .ok Z) :
    Encloses Z (fun s => ∃ x ∈ X, ∃ y ∈ Y, s = x / y) := by
  rintro s ⟨x, hx, y, hy, rfl⟩
  have h0 : ¬ (0 : K) ∈ Y := fun h0 => by
    rw [((C03_div_error_iff R X Y hX hY).1).mpr h0] at h; cases h
  have hc : Y.containsNum 0 = false := by
    simpa using fun h => h0 (containsNum_iff.mp h)
  have ha : Y.a ≠ 0 := fun h => h0 ⟨h.le, h ▸ hY.2⟩
  have hb : Y.b ≠ 0 := fun h => h0 ⟨h ▸ hY.2, h.ge⟩
  have hZ : Z = Iv.divCC R X Y := by
    simpa [Iv.div, hc, hX.1, hY.1, ha, hb] using h.symm
  subst hZ
  have hr := inv_mem_of (not_mem_zero_cases hY.2 h0) hy
  have h1 := min4_le_mul hx hr
  have h2 := mul_le_max4 hx hr
  simp only [mul_one_div] at h1 h2
  simp only [Iv.divCC, Iv.mem_def, Rnd.min_dn, Rnd.max_up]
  constructor
  · refine (R.dn_le _).trans (le_trans (le_of_eq ?_) h1)
    simp only [min_assoc, min_comm, min_left_comm]
  · refine le_trans (h2.trans (le_of_eq ?_)) (R.le_up _)
    simp only [max_assoc, max_comm, max_left_comm]

example : Iv.div Rnd.exact (⟨.classical, 1, 2⟩ : Iv ℚ) ⟨.classical, -4, -2⟩
    = .ok ⟨.classical, -1, -1/4⟩ := by
  norm_num [Iv.div, Iv.divCC, Iv.containsNum]

example : Iv.div Rnd.exact (⟨.classical, 1, 2⟩ : Iv ℚ) ⟨.classical, -4, 0⟩
    = .error .valueError := by
  norm_num [Iv.div, Iv.divCC, Iv.containsNum]

/-! ## C04 -/

/-- C04 (full statement, not provable of the code): `X / c` encloses every `x / c`. -/
def C04_statement (R : Rnd K) : Prop :=
  ∀ (X : Iv K) (c : K) (Z : Iv K), Ordinary X → X.divNum R c = .ok Z →
    Encloses Z (fun s => ∃ x ∈ X, s = x / c)

/-- C04 is false: the reciprocal is rounded to nearest.  With one decimal digit `[1,1] / 3` evaluates
to `[0.3, 0.3]`, which does not contain `1/3`. -/
theorem C04_divNum_encloses_false : ¬ C04_statement (Rnd.grid 10 (by norm_num)) := by
  intro h
  have h1 := h ⟨.classical, 1, 1⟩ 3 ⟨.classical, 3/10, 3/10⟩ ⟨rfl, le_refl _⟩ (by
    norm_num [Iv.divNum, Iv.rmul, Rnd.grid, Int.floor_eq_iff, Int.ceil_eq_iff])
    (1/3) ⟨1, by norm_num [Iv.mem_def], by norm_num⟩
  norm_num [Iv.mem_def] at h1

/-- C04, partial: `X / c` encloses every `x / c` when the reciprocal of `c` happens to be
representable (for instance when `c` is a power of two, or in exact arithmetic).
Missing: all other divisors, for which the property fails. -/
theorem C04_divNum_encloses_partial (R : Rnd K) (X : Iv K) (c : K) (Z : Iv K) (hX : Ordinary X)
    (hc : R.nr (1 / c) = 1 / c) (h : X.divNum R c = .ok Z) :
    c ≠ 0 ∧ Ordinary Z ∧ Encloses Z (fun s => ∃ x ∈ X, s = x / c) := by
  unfold Iv.divNum at h
  split at h
  · cases h
  · rename_i hc0
    cases h
    rw [hc]
    have enc : Encloses (Iv.rmul R (1 / c) X) (fun s => ∃ x ∈ X, s = x / c) := by
      rintro s ⟨x, hx, rfl⟩
      have h1 := min4_le_mul (a := 1 / c) (b := 1 / c) (x := 1 / c) ⟨le_refl _, le_refl _⟩ hx
      have h2 := mul_le_max4 (a := 1 / c) (b := 1 / c) (x := 1 / c) ⟨le_refl _, le_refl _⟩ hx
      have e : 1 / c * x = x / c := by ring
      rw [e] at h1 h2
      simp only [Iv.rmul, hX.1, Iv.mem_def, Rnd.min_dn, Rnd.max_up]
      constructor
      · refine (R.dn_le _).trans (le_trans ?_ h1)
        simp
      · refine le_trans (h2.trans ?_) (R.le_up _)
        simp
    refine ⟨hc0, ⟨by simp [Iv.rmul, hX.1], ?_⟩, enc⟩
    have := enc (X.a / c) ⟨X.a, ⟨le_refl _, hX.2⟩, rfl⟩
    exact this.1.trans this.2

/-- C04, how wrong it can be: if rounding to nearest changes `1/c` by at most `ε/|c|`, every quotient `x / c` is within
`ε |x / c|` of a point of the result. -/
theorem C04_slack (R : Rnd K) (X : Iv K) (c ε : K) (Z : Iv K) (hX : Ordinary X) (hc : |R.nr (1 / c) - 1 / c| ≤ ε * |1 / c|)
    (h : X.divNum R c = .ok Z) : ∀ x ∈ X, ∃ z ∈ Z, |z - x / c| ≤ ε * |x / c| := by
  intro x hx
  unfold Iv.divNum at h
  split at h
  · cases h
  · cases h
    refine ⟨R.nr (1 / c) * x, ?_, ?_⟩
    · have h1 := min4_le_mul (a := R.nr (1 / c)) (b := R.nr (1 / c)) (x := R.nr (1 / c)) ⟨le_refl _, le_refl _⟩ hx
      have h2 := mul_le_max4 (a := R.nr (1 / c)) (b := R.nr (1 / c)) (x := R.nr (1 / c)) ⟨le_refl _, le_refl _⟩ hx
      simp only [Iv.rmul, hX.1, Iv.mem_def, Rnd.min_dn, Rnd.max_up]
      exact ⟨(R.dn_le _).trans (le_trans (by simp) h1), le_trans (h2.trans (by simp)) (R.le_up _)⟩
    · have e1 : R.nr (1 / c) * x - x / c = (R.nr (1 / c) - 1 / c) * x := by ring
      have e2 : x / c = 1 / c * x := by ring
      rw [e1, e2, abs_mul, abs_mul, ← mul_assoc]
      exact mul_le_mul_of_nonneg_right hc (abs_nonneg x)

/-- The hypothesis of `C04_slack` with one decimal digit: `1/3` becomes `0.3`, off by a tenth. -/
example : |(Rnd.grid 10 (by norm_num) : Rnd ℚ).nr (1 / 3) - 1 / 3| ≤ 1 / 10 * |(1 / 3 : ℚ)| := by
  have : (Rnd.grid 10 (by norm_num) : Rnd ℚ).nr (1 / 3) = 3 / 10 := by norm_num [Rnd.grid, Int.floor_eq_iff]
  rw [this]
  norm_num [abs_le]

example : Iv.divNum (Rnd.grid 10 (by norm_num)) ⟨.classical, (1 : ℚ), 3⟩ (-2)
    = .ok ⟨.classical, -15/10, -1/2⟩ := by
  norm_num [Iv.divNum, Iv.rmul, Rnd.grid, Int.floor_eq_iff, Int.ceil_eq_iff]

/-! ## C05 -/

/-- C05: `c + X` and `c - X` enclose. -/
theorem C05_radd_rsub_enclose (R : Rnd K) (c : K) (X : Iv K) :
    Encloses (Iv.radd R c X) (fun s => ∃ x ∈ X, s = c + x) ∧
    Encloses (Iv.rsub R c X) (fun s => ∃ x ∈ X, s = c - x) ∧
    Encloses (Iv.ufuncSub R c X) (fun s => ∃ x ∈ X, s = c - x) ∧
    Encloses (Iv.addNum R X c) (fun s => ∃ x ∈ X, s = x + c) ∧
    Encloses (Iv.subNum R X c) (fun s => ∃ x ∈ X, s = x - c) := by
  refine ⟨?_, ?_, ?_, ?_, ?_⟩ <;> rintro s ⟨x, hx, rfl⟩ <;>
    simp only [Iv.radd, Iv.rsub, Iv.ufuncSub, Iv.addNum, Iv.subNum, Iv.neg, Iv.mem_def] at * <;>
    exact ⟨(R.dn_le _).trans (by linarith [hx.1, hx.2]),
      le_trans (by linarith [hx.1, hx.2]) (R.le_up _)⟩

/-- C05: `c * X` (and `X * c`) encloses for an ordinary interval and yields an ordinary interval. -/
theorem C05_rmul_encloses (R : Rnd K) (c : K) (X : Iv K) (hX : Ordinary X) :
    Encloses (Iv.rmul R c X) (fun s => ∃ x ∈ X, s = c * x) ∧
    Encloses (Iv.mulNum R X c) (fun s => ∃ x ∈ X, s = x * c) ∧ Ordinary (Iv.rmul R c X) := by
  have enc : Encloses (Iv.rmul R c X) (fun s => ∃ x ∈ X, s = c * x) := by
    rintro s ⟨x, hx, rfl⟩
    have h1 := min4_le_mul (a := c) (b := c) (x := c) ⟨le_refl _, le_refl _⟩ hx
    have h2 := mul_le_max4 (a := c) (b := c) (x := c) ⟨le_refl _, le_refl _⟩ hx
    simp only [Iv.rmul, hX.1, Iv.mem_def, Rnd.min_dn, Rnd.max_up]
    exact ⟨(R.dn_le _).trans (le_trans (by simp) h1), le_trans (h2.trans (by simp)) (R.le_up _)⟩
  refine ⟨enc, ?_, ?_⟩
  · rintro s ⟨x, hx, rfl⟩
    exact enc _ ⟨x, hx, mul_comm _ _⟩
  · have := enc (c * X.a) ⟨X.a, ⟨le_refl _, hX.2⟩, rfl⟩
    exact ⟨by simp [Iv.rmul, hX.1], this.1.trans this.2⟩

/-- C05: `c / X` raises `ValueError` exactly when `X` contains zero, otherwise it succeeds. -/
theorem C05_rdiv_error_iff (R : Rnd K) (c : K) (X : Iv K) (hX : Ordinary X) :
    (Iv.rdiv R c X = .error .valueError ↔ (0 : K) ∈ X) ∧
    ((∃ Z, Iv.rdiv R c X = .ok Z) ↔ ¬ (0 : K) ∈ X) := by
  by_cases h0 : (0 : K) ∈ X
  · have : Iv.rdiv R c X = .error .valueError := by
      simp [Iv.rdiv, containsNum_iff.mpr h0]
    simp [this, h0]
  · have hc : X.containsNum 0 = false := by
      simpa using fun h => h0 (containsNum_iff.mp h)
    have ha : X.a ≠ 0 := fun h => h0 ⟨h.le, h ▸ hX.2⟩
    have hb : X.b ≠ 0 := fun h => h0 ⟨h ▸ hX.2, h.ge⟩
    simp [Iv.rdiv, hc, Iv.recip, ha, hb, h0, Except.map]

/-- The outward reciprocal of a zero-free ordinary interval encloses the pointwise reciprocals. -/
theorem recip_encloses (R : Rnd K) (cl : Cls) (X Z : Iv K) (hX : X.a ≤ X.b) (h0 : ¬ (0 : K) ∈ X)
    (h : Iv.recip R cl X = .ok Z) :
    Z.cls = cl ∧ Encloses Z (fun s => ∃ x ∈ X, s = 1 / x) := by
  unfold Iv.recip at h
  split_ifs at h
  cases h
  refine ⟨rfl, ?_⟩
  rintro s ⟨x, hx, rfl⟩
  have hr := inv_mem_of (not_mem_zero_cases hX h0) hx
  exact ⟨(R.dn_le _).trans hr.1, hr.2.trans (R.le_up _)⟩

/-- C05: a successful `c / X` encloses every `c / x`. -/
theorem C05_rdiv_encloses (R : Rnd K) (c : K) (X Z : Iv K) (hX : Ordinary X)
    (h : Iv.rdiv R c X = .ok Z) :
    Encloses Z (fun s => ∃ x ∈ X, s = c / x) := by
  have h0 : ¬ (0 : K) ∈ X := fun h0 => by
    rw [((C05_rdiv_error_iff R c X hX).1).mpr h0] at h; cases h
  have hc : X.containsNum 0 = false := by
    simpa using fun h => h0 (containsNum_iff.mp h)
  simp only [Iv.rdiv, hc, Bool.false_eq_true, if_false] at h
  cases hr : Iv.recip R X.cls X with
  | error e => rw [hr] at h; cases h
  | ok W =>
    rw [hr] at h
    cases h
    obtain ⟨hWc, hW⟩ := recip_encloses R _ X W hX.2 h0 hr
    have hWo : Ordinary W := by
      have := hW (1 / X.a) ⟨X.a, ⟨le_refl _, hX.2⟩, rfl⟩
      exact ⟨hWc.trans hX.1, this.1.trans this.2⟩
    rintro s ⟨x, hx, rfl⟩
    refine (C05_rmul_encloses R c W hWo).1 _ ⟨1 / x, hW _ ⟨x, hx, rfl⟩, by ring⟩

example : Iv.rdiv (Rnd.grid 10 (by norm_num)) 1 ⟨.classical, (2 : ℚ), 3⟩
    = .ok ⟨.classical, 3/10, 1/2⟩ := by
  norm_num [Iv.rdiv, Iv.recip, Iv.rmul, Rnd.grid, Iv.containsNum, Except.map,
    Int.floor_eq_iff, Int.ceil_eq_iff]

/-! ## C06 -/

/-- C06: natural powers of an ordinary interval enclose the pointwise powers, for every exponent and
every directed rounding, and are ordinary intervals. -/
theorem C06_pow_encloses (R : Rnd K) (X : Iv K) (n : ℕ) (hX : Ordinary X) :
    Encloses (X.powNat R n) (fun s => ∃ x ∈ X, s = x ^ n) ∧ Ordinary (X.powNat R n) := by
  have enc : Encloses (X.powNat R n) (fun s => ∃ x ∈ X, s = x ^ n) := by
    rintro s ⟨x, hx, rfl⟩
    simp only [Iv.powNat, hX.1, Rnd.min_dn, Rnd.max_up]
    split_ifs with h
    · have hn : Even n := Nat.even_iff.mpr h.1
      exact ⟨hn.pow_nonneg x, (pow_le_max_of_even hn hx).trans (R.le_up _)⟩
    · have h' : ¬ (n % 2 = 0 ∧ (X.a ≤ 0 ∧ 0 ≤ X.b)) := by
        intro h'; exact h ⟨h'.1, containsNum_iff.mpr h'.2⟩
      have := pow_mem_corners hx h'
      exact ⟨(R.dn_le _).trans this.1, this.2.trans (R.le_up _)⟩
  refine ⟨enc, ?_, ?_⟩
  · simp only [Iv.powNat, hX.1]; split_ifs <;> rfl
  · have := enc (X.a ^ n) ⟨X.a, ⟨le_refl _, hX.2⟩, rfl⟩
    exact this.1.trans this.2

/-- C06: in exact arithmetic and for a positive exponent the power is exactly the range. -/
theorem C06_pow_range (X : Iv K) (n : ℕ) (hn : 0 < n) (hX : Ordinary X) :
    IsRange (X.powNat Rnd.exact n) (fun s => ∃ x ∈ X, s = x ^ n) := by
  refine ⟨(C06_pow_encloses Rnd.exact X n hX).1, ?_, ?_⟩
  · simp only [Iv.powNat, hX.1, Rnd.exact_dn, Rnd.exact_up, id]
    split_ifs with h
    · exact ⟨0, containsNum_iff.mp h.2, by simp [hn.ne']⟩
    · rcases min_choice (X.a ^ n) (X.b ^ n) with e | e
      · exact ⟨X.a, ⟨le_refl _, hX.2⟩, e⟩
      · exact ⟨X.b, ⟨hX.2, le_refl _⟩, e⟩
  · simp only [Iv.powNat, hX.1, Rnd.exact_dn, Rnd.exact_up, id]
    have : ∃ x ∈ X, max (X.a ^ n) (X.b ^ n) = x ^ n := by
      rcases max_choice (X.a ^ n) (X.b ^ n) with e | e
      · exact ⟨X.a, ⟨le_refl _, hX.2⟩, e⟩
      · exact ⟨X.b, ⟨hX.2, le_refl _⟩, e⟩
    split_ifs <;> exact this

/-- C06: the exponent zero is the only exception to sharpness: `[-1,1] ** 0` is `[0, 1]` although
`x ** 0 = 1` for every point. -/
theorem C06_pow_zero_not_sharp :
    (⟨.classical, -1, 1⟩ : Iv ℚ).powNat Rnd.exact 0 = ⟨.classical, 0, 1⟩ := by
  norm_num [Iv.powNat, Iv.containsNum]

example : (⟨.classical, -3, 2⟩ : Iv ℚ).powNat Rnd.exact 2 = ⟨.classical, 0, 9⟩ := by
  norm_num [Iv.powNat, Iv.containsNum]
example : (⟨.classical, -3, -2⟩ : Iv ℚ).powNat Rnd.exact 2 = ⟨.classical, 4, 9⟩ := by
  norm_num [Iv.powNat, Iv.containsNum]
example : (⟨.classical, -3, 2⟩ : Iv ℚ).powNat Rnd.exact 3 = ⟨.classical, -27, 8⟩ := by
  norm_num [Iv.powNat, Iv.containsNum]

/-! ## C11 -/

/-- C11: without rounding the sum is exactly the range. -/
theorem C11_add_range (X Y : Iv K) (hX : Ordinary X) (hY : Ordinary Y) :
    IsRange (X.add Rnd.exact Y) (fun s => ∃ x ∈ X, ∃ y ∈ Y, s = x + y) := by
  refine ⟨C01_add_encloses _ X Y, ?_, ?_⟩ <;> simp only [Iv.add, hX.1, Rnd.exact_dn, Rnd.exact_up, id]
  · exact ⟨X.a, ⟨le_refl _, hX.2⟩, Y.a, ⟨le_refl _, hY.2⟩, rfl⟩
  · exact ⟨X.b, ⟨hX.2, le_refl _⟩, Y.b, ⟨hY.2, le_refl _⟩, rfl⟩

/-- C11: without rounding the difference is exactly the range. -/
theorem C11_sub_range (X Y : Iv K) (hX : Ordinary X) (hY : Ordinary Y) :
    IsRange (X.sub Rnd.exact Y) (fun s => ∃ x ∈ X, ∃ y ∈ Y, s = x - y) := by
  refine ⟨C01_sub_encloses _ X Y, ?_, ?_⟩ <;> simp only [Iv.sub, hX.1, Rnd.exact_dn, Rnd.exact_up, id]
  · exact ⟨X.a, ⟨le_refl _, hX.2⟩, Y.b, ⟨hY.2, le_refl _⟩, rfl⟩
  · exact ⟨X.b, ⟨hX.2, le_refl _⟩, Y.a, ⟨le_refl _, hY.2⟩, rfl⟩

theorem min4_choice (p q r s : K) :
    min (min (min p q) r) s = p ∨ min (min (min p q) r) s = q ∨ min (min (min p q) r) s = r ∨
      min (min (min p q) r) s = s := by
  rcases min_choice (min (min p q) r) s with h | h <;> rw [h]
  · rcases min_choice (min p q) r with h | h <;> rw [h]
    · rcases min_choice p q with h | h <;> rw [h] <;> simp
    · simp
  · simp

theorem max4_choice (p q r s : K) :
    max (max (max p q) r) s = p ∨ max (max (max p q) r) s = q ∨ max (max (max p q) r) s = r ∨
      max (max (max p q) r) s = s := by
  rcases max_choice (max (max p q) r) s with h | h <;> rw [h]
  · rcases max_choice (max p q) r with h | h <;> rw [h]
    · rcases max_choice p q with h | h <;> rw [h] <;> simp
    · simp
  · simp

/-- C11: without rounding the product is exactly the range. -/
theorem C11_mul_range (X Y : Iv K) (hX : Ordinary X) (hY : Ordinary Y) :
    IsRange (X.mul Rnd.exact Y) (fun s => ∃ x ∈ X, ∃ y ∈ Y, s = x * y) := by
  have ha : X.a ∈ X := ⟨le_refl _, hX.2⟩
  have hb : X.b ∈ X := ⟨hX.2, le_refl _⟩
  have hc : Y.a ∈ Y := ⟨le_refl _, hY.2⟩
  have hd : Y.b ∈ Y := ⟨hY.2, le_refl _⟩
  refine ⟨C02_mul_encloses _ X Y hX hY, ?_, ?_⟩ <;>
    simp only [Iv.mul, hX.1, hY.1, Iv.mulCC, Rnd.exact_dn, Rnd.exact_up, id]
  · rcases min4_choice (X.a * Y.a) (X.a * Y.b) (X.b * Y.a) (X.b * Y.b) with e | e | e | e <;> rw [e]
    exacts [⟨_, ha, _, hc, rfl⟩, ⟨_, ha, _, hd, rfl⟩, ⟨_, hb, _, hc, rfl⟩, ⟨_, hb, _, hd, rfl⟩]
  · rcases max4_choice (X.a * Y.a) (X.a * Y.b) (X.b * Y.a) (X.b * Y.b) with e | e | e | e <;> rw [e]
    exacts [⟨_, ha, _, hc, rfl⟩, ⟨_, ha, _, hd, rfl⟩, ⟨_, hb, _, hc, rfl⟩, ⟨_, hb, _, hd, rfl⟩]

/-- C11: without rounding a successful quotient is exactly the range. -/
theorem C11_div_range (X Y Z : Iv K) (hX : Ordinary X) (hY : Ordinary Y)
    (h : X.div Rnd.exact Y = .ok Z) :
    IsRange Z (fun s => ∃ x ∈ X, ∃ y ∈ Y, s = x / y) := by
  have henc := C03_div_encloses Rnd.exact X Y Z hX hY h
  have ha : X.a ∈ X := ⟨le_refl _, hX.2⟩
  have hb : X.b ∈ X := ⟨hX.2, le_refl _⟩
  have hc : Y.a ∈ Y := ⟨le_refl _, hY.2⟩
  have hd : Y.b ∈ Y := ⟨hY.2, le_refl _⟩
  have hZ : Z = Iv.divCC Rnd.exact X Y := by
    simp only [Iv.div, hX.1, hY.1] at h
    split_ifs at h
    exact (Except.ok.inj h).symm
  subst hZ
  refine ⟨henc, ?_, ?_⟩ <;> simp only [Iv.divCC, Rnd.exact_dn, Rnd.exact_up, id]
  · rcases min4_choice (X.a / Y.a) (X.a / Y.b) (X.b / Y.a) (X.b / Y.b) with e | e | e | e <;> rw [e]
    exacts [⟨_, ha, _, hc, rfl⟩, ⟨_, ha, _, hd, rfl⟩, ⟨_, hb, _, hc, rfl⟩, ⟨_, hb, _, hd, rfl⟩]
  · rcases max4_choice (X.a / Y.a) (X.a / Y.b) (X.b / Y.a) (X.b / Y.b) with e | e | e | e <;> rw [e]
    exacts [⟨_, ha, _, hc, rfl⟩, ⟨_, ha, _, hd, rfl⟩, ⟨_, hb, _, hc, rfl⟩, ⟨_, hb, _, hd, rfl⟩]

example : IsRange (Iv.mul Rnd.exact (⟨.classical, -1, 3⟩ : Iv ℚ) ⟨.classical, -2, 5⟩)
    (fun s => ∃ x ∈ (⟨.classical, -1, 3⟩ : Iv ℚ), ∃ y ∈ (⟨.classical, -2, 5⟩ : Iv ℚ), s = x * y) :=
  C11_mul_range _ _ ⟨rfl, by norm_num⟩ ⟨rfl, by norm_num⟩

end IntvalPy
