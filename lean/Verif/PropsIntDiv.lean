import Verif.PropsIntEnds
import Verif.PropsUtils

/-!
# C08: quotients of intervals with integer endpoints
-/

set_option autoImplicit false
set_option linter.unusedSectionVars false

namespace IntvalPy
open FIv

/-- **C08**, quotients of integers below `2 ^ 53`: CPython divides such integers as doubles in the active rounding mode, so
the quotient encloses, and zero in the divisor raises `ValueError`. -/
theorem C08_quotient_small (x1 x2 y1 y2 : ℤ) (s : Mode) (hy : y1 ≤ y2)
    (bx : |x1| < 2 ^ 53 ∧ |x2| < 2 ^ 53) (by_ : |y1| < 2 ^ 53 ∧ |y2| < 2 ^ 53) :
    (y1 ≤ 0 ∧ 0 ≤ y2 →
      FIv.div ⟨.classical, .int x1, .int x2⟩ ⟨.classical, .int y1, .int y2⟩ s = (.error .valueError, s)) ∧
    (¬ (y1 ≤ 0 ∧ 0 ≤ y2) → ∃ Z, FIv.div ⟨.classical, .int x1, .int x2⟩ ⟨.classical, .int y1, .int y2⟩ s = (.ok Z, s) ∧
      ∀ x y : ℝ, (x1 : ℝ) ≤ x ∧ x ≤ x2 → (y1 : ℝ) ≤ y ∧ y ≤ y2 → Z.Mem (x / y)) := by
  have mem : ∀ (a b : ℤ) (t : ℝ), (⟨.classical, .int a, .int b⟩ : FIv).Mem t ↔ (a : ℝ) ≤ t ∧ t ≤ b := by
    intro a b t
    show (((a : ℚ) : ℝ) ≤ t ∧ t ≤ ((b : ℚ) : ℝ)) ↔ _
    push_cast
    rfl
  have il : ∀ z : ℤ, |z| < 2 ^ 53 → (Num.int z).IntsLe (2 ^ 53 - 1) := by
    intro z hz
    show |z| ≤ 2 ^ 53 - 1
    omega
  obtain ⟨h1, h2⟩ := C03_float_encloses ⟨.classical, .int x1, .int x2⟩ ⟨.classical, .int y1, .int y2⟩ s rfl rfl
    ⟨⟨_, rfl⟩, ⟨_, rfl⟩⟩ ⟨⟨_, rfl⟩, ⟨_, rfl⟩⟩ ⟨il _ bx.1, il _ bx.2⟩ ⟨il _ by_.1, il _ by_.2⟩
    ⟨y1, (mem _ _ _).mpr ⟨le_rfl, by exact_mod_cast hy⟩⟩
  have h0 : (⟨.classical, .int y1, .int y2⟩ : FIv).Mem 0 ↔ y1 ≤ 0 ∧ 0 ≤ y2 := by
    rw [mem]
    norm_cast
  rw [h0] at h1 h2
  refine ⟨h1, fun h => ?_⟩
  obtain ⟨Z, hZ, hm⟩ := h2 h
  exact ⟨Z, hZ, fun x y hx hy => hm x y ((mem _ _ _).mpr hx) ((mem _ _ _).mpr hy)⟩

theorem min2_dfin (p q : ℚ) : Num.min2 (.dbl (.fin p)) (.dbl (.fin q)) = .dbl (.fin (min p q)) := by
  unfold Num.min2 Num.lt Num.val Dbl.lt
  by_cases h : q < p
  · rw [if_pos (decide_eq_true h), min_eq_right h.le]
  · rw [if_neg (by rw [decide_eq_true_eq]; exact h), min_eq_left (not_lt.mp h)]

theorem max2_dfin (p q : ℚ) : Num.max2 (.dbl (.fin p)) (.dbl (.fin q)) = .dbl (.fin (max p q)) := by
  unfold Num.max2 Num.lt Num.val Dbl.lt
  by_cases h : p < q
  · rw [if_pos (decide_eq_true h), max_eq_right h.le]
  · rw [if_neg (by rw [decide_eq_true_eq]; exact h), max_eq_left (not_lt.mp h)]

/-- The error of one rounding to nearest. -/
def nearErr (t : ℚ) : ℚ := 2 ^ (-53 : ℤ) * |t| + 2 ^ (-1075 : ℤ)

/-- A quotient of two integers in the modes used: off in the wrong direction by at most one rounding to nearest. -/
theorem int_quotient (z w : ℤ) (hw : w ≠ 0) (h : |(z : ℚ) / w| ≤ maxFin) :
    (∃ d, Num.div .down (.int z) (.int w) = .ok (.dbl (.fin d)) ∧ d ≤ (z : ℚ) / w + nearErr ((z : ℚ) / w)) ∧
    (∃ d, Num.div .up (.int z) (.int w) = .ok (.dbl (.fin d)) ∧ (z : ℚ) / w - nearErr ((z : ℚ) / w) ≤ d) := by
  have he := abs_le.mp (nearTo_err ((z : ℚ) / w))
  have h' := abs_le.mp h
  have h0 : 0 ≤ nearErr ((z : ℚ) / w) := add_nonneg (by positivity) (zpow_pos (by norm_num) _).le
  unfold nearErr at h0 ⊢
  by_cases hs : |z| < 2 ^ 53 ∧ |w| < 2 ^ 53
  · constructor
    · refine ⟨floorTo ((z : ℚ) / w), ?_, by linarith [floorTo_le ((z : ℚ) / w)]⟩
      simp only [Num.div]
      rw [if_neg hw, if_pos hs]
      simp only [round]
      rw [if_neg (not_lt.mpr ((floorTo_le _).trans h'.2)), if_neg (not_lt.mpr (le_floorTo isF_maxFin.neg h'.1))]
    · refine ⟨ceilTo ((z : ℚ) / w), ?_, by linarith [le_ceilTo ((z : ℚ) / w)]⟩
      simp only [Num.div]
      rw [if_neg hw, if_pos hs]
      simp only [round]
      rw [if_neg (not_lt.mpr (ceilTo_le isF_maxFin h'.2)), if_neg (not_lt.mpr (h'.1.trans (le_ceilTo _)))]
  · have e : ∀ m, Num.div m (.int z) (.int w) = .ok (.dbl (.fin (nearTo ((z : ℚ) / w)))) := by
      intro m
      simp only [Num.div]
      rw [if_neg hw, if_neg hs, round_near h]
    exact ⟨⟨_, e _, by linarith⟩, ⟨_, e _, by linarith⟩⟩

/-- **C08**, quotients of integers of any size: the result misses the exact range `[lo, hi]` of the quotients by at most one
rounding to nearest at each end. -/
theorem C08_quotient_nearest (x1 x2 y1 y2 : ℤ) (s : Mode) (h0 : ¬ (y1 ≤ 0 ∧ 0 ≤ y2)) (hy : y1 ≤ y2)
    (h : ∀ x ∈ [x1, x2], ∀ y ∈ [y1, y2], |(x : ℚ) / y| ≤ maxFin) :
    ∃ p q : ℚ, FIv.div ⟨.classical, .int x1, .int x2⟩ ⟨.classical, .int y1, .int y2⟩ s =
        (.ok ⟨.classical, .dbl (.fin p), .dbl (.fin q)⟩, s) ∧
      ∀ x ∈ [x1, x2], ∀ y ∈ [y1, y2],
        p ≤ (x : ℚ) / y + nearErr ((x : ℚ) / y) ∧ (x : ℚ) / y - nearErr ((x : ℚ) / y) ≤ q := by
  have n1 : y1 ≠ 0 := by rintro rfl; exact h0 ⟨le_rfl, hy⟩
  have n2 : y2 ≠ 0 := by rintro rfl; exact h0 ⟨hy, le_rfl⟩
  obtain ⟨⟨d1, e1, b1⟩, ⟨u1, f1, c1⟩⟩ := int_quotient x1 y1 n1 (h _ (by simp) _ (by simp))
  obtain ⟨⟨d2, e2, b2⟩, ⟨u2, f2, c2⟩⟩ := int_quotient x1 y2 n2 (h _ (by simp) _ (by simp))
  obtain ⟨⟨d3, e3, b3⟩, ⟨u3, f3, c3⟩⟩ := int_quotient x2 y1 n1 (h _ (by simp) _ (by simp))
  obtain ⟨⟨d4, e4, b4⟩, ⟨u4, f4, c4⟩⟩ := int_quotient x2 y2 n2 (h _ (by simp) _ (by simp))
  have hz : (⟨.classical, .int y1, .int y2⟩ : FIv).containsNum (.dbl (.fin 0)) = false := by
    rw [Bool.eq_false_iff]
    intro hc
    change (Dbl.le (.fin (y1 : ℚ)) (.fin 0) && Dbl.le (.fin 0) (.fin (y2 : ℚ))) = true at hc
    simp only [Dbl.le, Bool.and_eq_true, decide_eq_true_eq] at hc
    exact h0 ⟨by exact_mod_cast hc.1, by exact_mod_cast hc.2⟩
  refine ⟨min (min (min d1 d2) d3) d4, max (max (max u1 u2) u3) u4, ?_, ?_⟩
  · have lo := run_store (x := FIv.min4 (ndiv (.int x1) (.int y1)) (ndiv (.int x1) (.int y2)) (ndiv (.int x2) (.int y1))
      (ndiv (.int x2) (.int y2))) (m := .down) (run_min4 e1 e2 e3 e4) (by
        rw [min2_dfin, min2_dfin, min2_dfin]; trivial)
    have hi := run_store (x := FIv.max4 (ndiv (.int x1) (.int y1)) (ndiv (.int x1) (.int y2)) (ndiv (.int x2) (.int y1))
      (ndiv (.int x2) (.int y2))) (m := .up) (run_max4 f1 f2 f3 f4) (by
        rw [max2_dfin, max2_dfin, max2_dfin]; trivial)
    rw [min2_dfin, min2_dfin, min2_dfin] at lo
    rw [max2_dfin, max2_dfin, max2_dfin] at hi
    unfold FIv.div
    rw [if_neg (by rw [hz]; decide)]
    exact run_two_ok (f := FIv.mk .classical) lo hi
  · have l1 : min (min (min d1 d2) d3) d4 ≤ d1 := ((min_le_left _ _).trans (min_le_left _ _)).trans (min_le_left _ _)
    have l2 : min (min (min d1 d2) d3) d4 ≤ d2 := ((min_le_left _ _).trans (min_le_left _ _)).trans (min_le_right _ _)
    have l3 : min (min (min d1 d2) d3) d4 ≤ d3 := (min_le_left _ _).trans (min_le_right _ _)
    have l4 : min (min (min d1 d2) d3) d4 ≤ d4 := min_le_right _ _
    have r1 : u1 ≤ max (max (max u1 u2) u3) u4 := (le_max_left _ _).trans ((le_max_left _ _).trans (le_max_left _ _))
    have r2 : u2 ≤ max (max (max u1 u2) u3) u4 := (le_max_right _ _).trans ((le_max_left _ _).trans (le_max_left _ _))
    have r3 : u3 ≤ max (max (max u1 u2) u3) u4 := (le_max_right _ _).trans (le_max_left _ _)
    have r4 : u4 ≤ max (max (max u1 u2) u3) u4 := le_max_right _ _
    intro x hx y hy'
    simp only [List.mem_cons, List.not_mem_nil, or_false] at hx hy'
    rcases hx with rfl | rfl <;> rcases hy' with rfl | rfl
    · exact ⟨l1.trans b1, c1.trans r1⟩
    · exact ⟨l2.trans b2, c2.trans r2⟩
    · exact ⟨l3.trans b3, c3.trans r3⟩
    · exact ⟨l4.trans b4, c4.trans r4⟩

/-- An integer quotient beyond the doubles raises `OverflowError`. -/
theorem C08_quotient_overflow (x : ℤ) (s : Mode) (h : (2 : ℚ) ^ 1024 ≤ |(x : ℚ)|) :
    FIv.div ⟨.classical, .int x, .int x⟩ ⟨.classical, .int 1, .int 1⟩ s = (.error .overflowError, s) := by
  have hb : ¬ (|x| < 2 ^ 53 ∧ |(1 : ℤ)| < 2 ^ 53) := by
    rintro ⟨hx, -⟩
    have h1 : |(x : ℚ)| < 2 ^ 53 := by exact_mod_cast hx
    have h2 : (2 : ℚ) ^ 53 ≤ 2 ^ 1024 := pow_le_pow_right₀ (by norm_num) (by norm_num)
    exact absurd (h2.trans h) (not_le.mpr h1)
  have e : ∀ m, Num.div m (.int x) (.int 1) = .error .overflowError := by
    intro m
    have := round_large h
    simp only [Num.div]
    rw [if_neg (by norm_num), if_neg hb]
    push_cast
    rw [div_one]
    generalize round .nearest (x : ℚ) = r at this ⊢
    cases r with
    | fin q => exact absurd rfl (this q)
    | pinf => rfl
    | ninf => rfl
    | nan => rfl
  have hz : (⟨.classical, .int 1, .int 1⟩ : FIv).containsNum (.dbl (.fin 0)) = false := by decide +kernel
  unfold FIv.div
  rw [if_neg (by rw [hz]; decide)]
  dsimp only
  have h1 : ((FIv.store (min4 (ndiv (.int x) (.int 1)) (ndiv (.int x) (.int 1)) (ndiv (.int x) (.int 1))
      (ndiv (.int x) (.int 1)))) .down).1 = .error .overflowError := by
    simp only [FIv.store, FIv.min4, run_bind, FIv.ndiv, M.op, e]
  rw [run_two, h1]
  rfl

/-- Beyond `2 ^ 53` the quotient can lose elements: `[2^53+1, 2^53+1] / [1, 1] = [2^53, 2^53]`. -/
theorem C08_quotient_false : ∃ Z, FIv.div ⟨.classical, .int (2 ^ 53 + 1), .int (2 ^ 53 + 1)⟩ ⟨.classical, .int 1, .int 1⟩
    .nearest = (.ok Z, .nearest) ∧ ¬ Z.Mem (((2 ^ 53 + 1 : ℤ) : ℝ) / ((1 : ℤ) : ℝ)) := by
  refine ⟨⟨.classical, .dbl (.fin (2 ^ 53)), .dbl (.fin (2 ^ 53))⟩, by decide +kernel, ?_⟩
  rintro ⟨-, h⟩
  change _ ≤ ((2 ^ 53 : ℚ) : ℝ) at h
  norm_num at h

/-- Nonvacuity: `[-7, 10^30] / [3, 10^20]`. -/
example : ¬ ((3 : ℤ) ≤ 0 ∧ (0 : ℤ) ≤ 10 ^ 20) ∧
    ∀ x ∈ [-7, 10 ^ 30], ∀ y ∈ [3, 10 ^ 20], |((x : ℤ) : ℚ) / ((y : ℤ) : ℚ)| ≤ maxFin := by
  decide +kernel

end IntvalPy
