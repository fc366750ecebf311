import Verif.ModelUtils
import Mathlib.Tactic.Linarith

/-!
# Magnitude and mignitude in binary64, with infinite endpoints (C20)
-/

set_option autoImplicit false
set_option linter.unusedSectionVars false

namespace IntvalPy

/-- A rational number lies in the interval with these endpoints. -/
def InDbl (p q : Dbl) (t : ℚ) : Prop := Dbl.le p (.fin t) = true ∧ Dbl.le (.fin t) q = true

/-- C20 in binary64: `mag` of an interval with float endpoints, possibly infinite, is the greatest absolute value of its
members, infinite exactly for unbounded intervals; it is computed without rounding. -/
theorem C20_float_mag (c : Cls) (p q : Dbl) (hpq : Dbl.le p q = true) :
    ∃ d, (⟨c, .dbl p, .dbl q⟩ : FIv).magN = .ok (.dbl d) ∧ (∀ t, InDbl p q t → Dbl.le (.fin |t|) d = true) ∧
      (∀ v, d = .fin v → ∃ t, InDbl p q t ∧ |t| = v) ∧
      (d = .pinf ↔ p = .ninf ∨ q = .pinf ∨ p = .pinf ∨ q = .ninf) ∧ d ≠ .nan ∧ d ≠ .ninf := by
  cases p with
  | fin x =>
    cases q with
    | fin y =>
      have hxy : x ≤ y := by simpa [Dbl.le] using hpq
      by_cases h : |x| < |y|
      · refine ⟨.fin |y|, ?_, ?_, ?_, ?_, by simp, by simp⟩
        · simp [FIv.magN, Num.fabs, Num.toDbl, Num.max2, Num.lt, Num.val, Dbl.lt, h]
        · rintro t ⟨h1, h2⟩
          simp only [Dbl.le, decide_eq_true_eq] at h1 h2 ⊢
          rw [abs_le]
          have := abs_le.1 h.le
          have := le_abs_self y
          constructor <;> linarith
        · rintro v hv
          cases hv
          exact ⟨y, ⟨by simpa [Dbl.le] using hxy, by simp [Dbl.le]⟩, rfl⟩
        · simp
      · refine ⟨.fin |x|, ?_, ?_, ?_, ?_, by simp, by simp⟩
        · simp [FIv.magN, Num.fabs, Num.toDbl, Num.max2, Num.lt, Num.val, Dbl.lt, h]
        · rintro t ⟨h1, h2⟩
          simp only [Dbl.le, decide_eq_true_eq] at h1 h2 ⊢
          rw [abs_le]
          have := abs_le.1 (not_lt.1 h)
          have := neg_abs_le x
          constructor <;> linarith
        · rintro v hv
          cases hv
          exact ⟨x, ⟨by simp [Dbl.le], by simpa [Dbl.le] using hxy⟩, rfl⟩
        · simp
    | pinf => exact ⟨.pinf, by simp [FIv.magN, Num.fabs, Num.toDbl, Num.max2, Num.lt, Num.val, Dbl.lt], by simp [Dbl.le], by simp⟩
    | ninf => exact absurd hpq (by simp [Dbl.le])
    | nan => exact absurd hpq (by simp [Dbl.le])
  | pinf =>
    cases q with
    | pinf => exact ⟨.pinf, by simp [FIv.magN, Num.fabs, Num.toDbl, Num.max2], by simp [Dbl.le], by simp⟩
    | fin y => exact absurd hpq (by simp [Dbl.le])
    | ninf => exact absurd hpq (by simp [Dbl.le])
    | nan => exact absurd hpq (by simp [Dbl.le])
  | ninf =>
    cases q with
    | fin y => exact ⟨.pinf, by simp [FIv.magN, Num.fabs, Num.toDbl, Num.max2, Num.lt, Num.val, Dbl.lt], by simp [Dbl.le], by simp⟩
    | pinf => exact ⟨.pinf, by simp [FIv.magN, Num.fabs, Num.toDbl, Num.max2], by simp [Dbl.le], by simp⟩
    | ninf => exact ⟨.pinf, by simp [FIv.magN, Num.fabs, Num.toDbl, Num.max2], by simp [Dbl.le], by simp⟩
    | nan => exact absurd hpq (by simp [Dbl.le])
  | nan => exact absurd hpq (by cases q <;> simp [Dbl.le])

/-- C20 in binary64: `mig` is the least absolute value of the members, infinite exactly when there is no finite member. -/
theorem C20_float_mig (c : Cls) (p q : Dbl) (hpq : Dbl.le p q = true) :
    ∃ d, (⟨c, .dbl p, .dbl q⟩ : FIv).migN = .ok (.dbl d) ∧ (∀ t, InDbl p q t → Dbl.le d (.fin |t|) = true) ∧
      (∀ v, d = .fin v → ∃ t, InDbl p q t ∧ |t| = v) ∧ (d = .pinf ↔ ∀ t, ¬ InDbl p q t) ∧ d ≠ .nan ∧ d ≠ .ninf := by
  cases p with
  | fin x =>
    cases q with
    | fin y =>
      have hxy : x ≤ y := by simpa [Dbl.le] using hpq
      have inx : InDbl (.fin x) (.fin y) x := ⟨by simp [Dbl.le], by simpa [Dbl.le] using hxy⟩
      have iny : InDbl (.fin x) (.fin y) y := ⟨by simpa [Dbl.le] using hxy, by simp [Dbl.le]⟩
      by_cases h0 : x ≤ 0 ∧ 0 ≤ y
      · refine ⟨.fin 0, ?_, ?_, ?_, ?_, by simp, by simp⟩
        · simp [FIv.migN, FIv.containsNum, Num.le, Num.val, Dbl.le, h0.1, h0.2]
        · intro t _; simp [Dbl.le]
        · rintro v hv
          cases hv
          exact ⟨0, ⟨by simpa [Dbl.le] using h0.1, by simpa [Dbl.le] using h0.2⟩, abs_zero⟩
        · simp only [reduceCtorEq, false_iff]
          intro hc; exact hc x inx
      · have hn : (FIv.containsNum ⟨c, .dbl (.fin x), .dbl (.fin y)⟩ (.int 0)) = false := by
          simp only [FIv.containsNum, Num.le, Num.val, Dbl.le, Int.cast_zero, Bool.and_eq_false_iff, decide_eq_false_iff_not]
          rw [← not_and_or]; exact h0
        rw [not_and_or, not_le, not_le] at h0
        by_cases h : |y| < |x|
        · refine ⟨.fin |y|, ?_, ?_, ?_, ?_, by simp, by simp⟩
          · simp [FIv.migN, hn, Num.fabs, Num.toDbl, Num.min2, Num.lt, Num.val, Dbl.lt, h]
          · rintro t ⟨h1, h2⟩
            simp only [Dbl.le, decide_eq_true_eq] at h1 h2 ⊢
            rcases h0 with h0 | h0
            · rw [abs_of_pos h0, abs_of_pos (h0.trans_le hxy)] at h; linarith
            · rw [abs_of_neg h0, abs_of_neg (lt_of_le_of_lt h2 h0)]; linarith
          · rintro v hv
            cases hv
            exact ⟨y, iny, rfl⟩
          · simp only [reduceCtorEq, false_iff]
            intro hc; exact hc x inx
        · refine ⟨.fin |x|, ?_, ?_, ?_, ?_, by simp, by simp⟩
          · simp [FIv.migN, hn, Num.fabs, Num.toDbl, Num.min2, Num.lt, Num.val, Dbl.lt, h]
          · rintro t ⟨h1, h2⟩
            simp only [Dbl.le, decide_eq_true_eq] at h1 h2 ⊢
            rcases h0 with h0 | h0
            · rw [abs_of_pos h0, abs_of_pos (h0.trans_le h1)]; exact h1
            · rw [abs_of_neg h0, abs_of_neg (lt_of_le_of_lt hxy h0)] at h
              rw [abs_of_neg (lt_of_le_of_lt hxy h0), abs_of_neg (lt_of_le_of_lt h2 h0)]; linarith
          · rintro v hv
            cases hv
            exact ⟨x, inx, rfl⟩
          · simp only [reduceCtorEq, false_iff]
            intro hc; exact hc x inx
    | pinf =>
      have inx : InDbl (.fin x) .pinf x := ⟨by simp [Dbl.le], by simp [Dbl.le]⟩
      by_cases h0 : x ≤ 0
      · refine ⟨.fin 0, ?_, ?_, ?_, ?_, by simp, by simp⟩
        · simp [FIv.migN, FIv.containsNum, Num.le, Num.val, Dbl.le, h0]
        · intro t _; simp [Dbl.le]
        · rintro v hv
          cases hv
          exact ⟨0, ⟨by simpa [Dbl.le] using h0, by simp [Dbl.le]⟩, abs_zero⟩
        · simp only [reduceCtorEq, false_iff]
          intro hc; exact hc x inx
      · refine ⟨.fin |x|, ?_, ?_, ?_, ?_, by simp, by simp⟩
        · simp [FIv.migN, FIv.containsNum, Num.le, Dbl.le, h0, Num.fabs, Num.toDbl, Num.min2, Num.lt, Num.val, Dbl.lt]
        · rintro t ⟨h1, h2⟩
          simp only [Dbl.le, decide_eq_true_eq] at h1 ⊢
          rw [abs_of_pos (not_le.1 h0), abs_of_pos ((not_le.1 h0).trans_le h1)]; exact h1
        · rintro v hv
          cases hv
          exact ⟨x, inx, rfl⟩
        · simp only [reduceCtorEq, false_iff]
          intro hc; exact hc x inx
    | ninf => exact absurd hpq (by simp [Dbl.le])
    | nan => exact absurd hpq (by simp [Dbl.le])
  | pinf =>
    cases q with
    | pinf =>
      refine ⟨.pinf, by simp [FIv.migN, FIv.containsNum, Num.le, Num.val, Dbl.le, Num.fabs, Num.toDbl, Num.min2], ?_, by simp, ?_, by simp, by simp⟩
      · rintro t ⟨h1, -⟩; simp [Dbl.le] at h1
      · simp only [true_iff]; rintro t ⟨h1, -⟩; simp [Dbl.le] at h1
    | fin y => exact absurd hpq (by simp [Dbl.le])
    | ninf => exact absurd hpq (by simp [Dbl.le])
    | nan => exact absurd hpq (by simp [Dbl.le])
  | ninf =>
    cases q with
    | fin y =>
      have iny : InDbl .ninf (.fin y) y := ⟨by simp [Dbl.le], by simp [Dbl.le]⟩
      by_cases h0 : 0 ≤ y
      · refine ⟨.fin 0, ?_, ?_, ?_, ?_, by simp, by simp⟩
        · simp [FIv.migN, FIv.containsNum, Num.le, Num.val, Dbl.le, h0]
        · intro t _; simp [Dbl.le]
        · rintro v hv
          cases hv
          exact ⟨0, ⟨by simp [Dbl.le], by simpa [Dbl.le] using h0⟩, abs_zero⟩
        · simp only [reduceCtorEq, false_iff]
          intro hc; exact hc y iny
      · refine ⟨.fin |y|, ?_, ?_, ?_, ?_, by simp, by simp⟩
        · simp [FIv.migN, FIv.containsNum, Num.le, Dbl.le, h0, Num.fabs, Num.toDbl, Num.min2, Num.lt, Num.val, Dbl.lt]
        · rintro t ⟨h1, h2⟩
          simp only [Dbl.le, decide_eq_true_eq] at h2 ⊢
          rw [abs_of_neg (not_le.1 h0), abs_of_neg (lt_of_le_of_lt h2 (not_le.1 h0))]; linarith
        · rintro v hv
          cases hv
          exact ⟨y, iny, rfl⟩
        · simp only [reduceCtorEq, false_iff]
          intro hc; exact hc y iny
    | pinf =>
      have in0 : InDbl .ninf .pinf 0 := ⟨by simp [Dbl.le], by simp [Dbl.le]⟩
      refine ⟨.fin 0, by simp [FIv.migN, FIv.containsNum, Num.le, Num.val, Dbl.le], ?_, ?_, ?_, by simp, by simp⟩
      · intro t _; simp [Dbl.le]
      · rintro v hv
        cases hv
        exact ⟨0, in0, abs_zero⟩
      · simp only [reduceCtorEq, false_iff]
        intro hc; exact hc 0 in0
    | ninf =>
      refine ⟨.pinf, by simp [FIv.migN, FIv.containsNum, Num.le, Num.val, Dbl.le, Num.fabs, Num.toDbl, Num.min2], ?_, by simp, ?_, by simp, by simp⟩
      · rintro t ⟨-, h1⟩; simp [Dbl.le] at h1
      · simp only [true_iff]; rintro t ⟨-, h1⟩; simp [Dbl.le] at h1
    | nan => exact absurd hpq (by simp [Dbl.le])
  | nan => exact absurd hpq (by cases q <;> simp [Dbl.le])

/-- The hypotheses hold, also with infinite endpoints: `[-inf, -3]` has magnitude infinity and mignitude 3. -/
example : Dbl.le .ninf (.fin (-3)) = true ∧
    (⟨.classical, .dbl .ninf, .dbl (.fin (-3))⟩ : FIv).magN = .ok (.dbl .pinf) ∧
    (⟨.classical, .dbl .ninf, .dbl (.fin (-3))⟩ : FIv).migN = .ok (.dbl (.fin 3)) := by decide +kernel

end IntvalPy
