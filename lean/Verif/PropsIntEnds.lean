import Verif.PropsFloatWit
import Verif.PropsUtils

/-!
# C08: how much is lost with integer endpoints

Sums, differences and products of intervals with Python integers of any size as endpoints: the exact ends are rounded to the nearest double,
whatever the direction, so that each end is off by at most one part in `2 ^ 53`.
-/

set_option autoImplicit false
set_option linter.unusedSectionVars false

namespace IntvalPy
open FIv

/-- The error of rounding a number of magnitude at least one to nearest. -/
theorem nearTo_rel {x : ℚ} (h : 1 ≤ |x|) : |nearTo x - x| ≤ 2 ^ (-53 : ℤ) * |x| := by
  have hx : x ≠ 0 := fun e => by rw [e, abs_zero] at h; norm_num at h
  have hu := ulp_pos x
  have h1 : |nearTo x - x| ≤ 1 / 2 * ulp x := by
    have e : nearTo x - x = ((nearInt (x / ulp x) : ℚ) - x / ulp x) * ulp x := by
      rw [sub_mul, div_mul_cancel₀ _ hu.ne']; rfl
    rw [e, abs_mul, abs_of_pos hu]
    exact mul_le_mul_of_nonneg_right (nearInt_err _) hu.le
  have hl : (2 : ℚ) ^ (Int.log 2 |x|) ≤ |x| := by
    have := Int.zpow_log_le_self (b := 2) (r := |x|) (by norm_num) (abs_pos.mpr hx)
    exact_mod_cast this
  have h0 : 0 ≤ Int.log 2 |x| := (Int.zpow_le_iff_le_log (b := 2) (by norm_num) (abs_pos.mpr hx)).mp (by simpa using h)
  have h2 : ulp x = 2 ^ (-52 : ℤ) * (2 : ℚ) ^ (Int.log 2 |x|) := by
    unfold ulp ulpExp
    rw [max_eq_right (by omega), ← zpow_add₀ (by norm_num)]
    congr 1
    ring
  have e1 : (2 : ℚ) ^ (-53 : ℤ) = 1 / 2 * 2 ^ (-52 : ℤ) := by norm_num
  have hw : (0 : ℚ) < 2 ^ (-52 : ℤ) := zpow_pos (by norm_num) _
  rw [e1]
  rw [h2] at h1
  generalize (2 : ℚ) ^ (-52 : ℤ) = w at *
  nlinarith

/-- `p` is the integer `z` up to one part in `2 ^ 53`, and is `z` if `z` has at most 53 bits. -/
def NearInteger (p : ℚ) (z : ℤ) : Prop := |p - z| ≤ 2 ^ (-53 : ℤ) * |(z : ℚ)| ∧ (|z| ≤ 2 ^ 53 → p = z)

theorem nearTo_int (z : ℤ) : NearInteger (nearTo (z : ℚ)) z := by
  have hs : |z| ≤ 2 ^ 53 → nearTo (z : ℚ) = z := fun h => nearTo_of_isF (isF_int h)
  refine ⟨?_, hs⟩
  by_cases hz : |z| ≤ 2 ^ 53
  · rw [hs hz, sub_self, abs_zero]
    exact mul_nonneg (zpow_pos (by norm_num) _).le (abs_nonneg _)
  · refine nearTo_rel ?_
    have : 1 ≤ |z| := by omega
    exact_mod_cast this

/-- An exact integer stored in a double. -/
theorem run_store_int {x : M Num} {m : Mode} {z : ℤ} (h : (x m).1 = .ok (.int z)) (hz : |(z : ℚ)| ≤ maxFin) :
    ((FIv.store x) m).1 = .ok (.dbl (.fin (nearTo (z : ℚ)))) := by
  unfold FIv.store
  rw [run_bind]
  rcases e : x m with ⟨r, s⟩
  rw [e] at h
  simp only at h
  subst h
  simp only [M.op, Num.toDbl, round_near hz]
  rfl

theorem min2_int (z w : ℤ) : Num.min2 (.int z) (.int w) = .int (min z w) := by
  unfold Num.min2 Num.lt Num.val Dbl.lt
  by_cases h : w < z
  · rw [if_pos (decide_eq_true (by exact_mod_cast h)), min_eq_right h.le]
  · rw [if_neg (by rw [decide_eq_true_eq]; exact_mod_cast h), min_eq_left (not_lt.mp h)]

theorem max2_int (z w : ℤ) : Num.max2 (.int z) (.int w) = .int (max z w) := by
  unfold Num.max2 Num.lt Num.val Dbl.lt
  by_cases h : z < w
  · rw [if_pos (decide_eq_true (by exact_mod_cast h)), max_eq_right h.le]
  · rw [if_neg (by rw [decide_eq_true_eq]; exact_mod_cast h), max_eq_left (not_lt.mp h)]

/-- The result `Z` of an operation on intervals with integer endpoints: the ends `lo` and `hi` of the exact range are each rounded to the
nearest double, and everything in the range is in `Z` exactly when neither end was rounded inwards. -/
def NearestRange (Z : FIv) (lo hi : ℤ) (S : ℝ → Prop) : Prop :=
  ∃ p q : ℚ, Z = ⟨.classical, .dbl (.fin p), .dbl (.fin q)⟩ ∧ NearInteger p lo ∧ NearInteger q hi ∧
    ((∀ t, S t → Z.Mem t) ↔ p ≤ lo ∧ (hi : ℚ) ≤ q)

theorem nearestRange_of {lo hi : ℤ} {S : ℝ → Prop} (h1 : ∀ t, S t → (lo : ℝ) ≤ t ∧ t ≤ hi) (hlo : S lo) (hhi : S hi) :
    NearestRange ⟨.classical, .dbl (.fin (nearTo (lo : ℚ))), .dbl (.fin (nearTo (hi : ℚ)))⟩ lo hi S := by
  refine ⟨_, _, rfl, nearTo_int lo, nearTo_int hi, fun h => ⟨?_, ?_⟩, fun h t ht => ⟨?_, ?_⟩⟩
  · have := (h _ hlo).1
    change ((nearTo (lo : ℚ) : ℚ) : ℝ) ≤ lo at this
    exact_mod_cast this
  · have := (h _ hhi).2
    change (hi : ℝ) ≤ ((nearTo (hi : ℚ) : ℚ) : ℝ) at this
    exact_mod_cast this
  · change ((nearTo (lo : ℚ) : ℚ) : ℝ) ≤ t
    have : ((nearTo (lo : ℚ) : ℚ) : ℝ) ≤ lo := by exact_mod_cast h.1
    exact this.trans (h1 t ht).1
  · change t ≤ ((nearTo (hi : ℚ) : ℚ) : ℝ)
    have : (hi : ℝ) ≤ ((nearTo (hi : ℚ) : ℚ) : ℝ) := by exact_mod_cast h.2
    exact (h1 t ht).2.trans this

/-- **C08**, sums and differences of any size: unless the exact ends leave the range of the doubles, the exact ends are rounded to nearest. -/
theorem C08_sums_nearest (x1 x2 y1 y2 : ℤ) (hx : x1 ≤ x2) (hy : y1 ≤ y2) (s : Mode) :
    (|((x1 + y1 : ℤ) : ℚ)| ≤ maxFin → |((x2 + y2 : ℤ) : ℚ)| ≤ maxFin →
      ∃ Z, FIv.add ⟨.classical, .int x1, .int x2⟩ ⟨.classical, .int y1, .int y2⟩ s = (.ok Z, s) ∧
        NearestRange Z (x1 + y1) (x2 + y2)
          fun t => ∃ x y : ℝ, ((x1 : ℝ) ≤ x ∧ x ≤ x2) ∧ ((y1 : ℝ) ≤ y ∧ y ≤ y2) ∧ t = x + y) ∧
    (|((x1 - y2 : ℤ) : ℚ)| ≤ maxFin → |((x2 - y1 : ℤ) : ℚ)| ≤ maxFin →
      ∃ Z, FIv.sub ⟨.classical, .int x1, .int x2⟩ ⟨.classical, .int y1, .int y2⟩ s = (.ok Z, s) ∧
        NearestRange Z (x1 - y2) (x2 - y1)
          fun t => ∃ x y : ℝ, ((x1 : ℝ) ≤ x ∧ x ≤ x2) ∧ ((y1 : ℝ) ≤ y ∧ y ≤ y2) ∧ t = x - y) := by
  have hx' : (x1 : ℝ) ≤ x2 := by exact_mod_cast hx
  have hy' : (y1 : ℝ) ≤ y2 := by exact_mod_cast hy
  refine ⟨fun h1 h2 => ⟨_, run_two_ok (run_store_int rfl h1) (run_store_int rfl h2), nearestRange_of ?_ ?_ ?_⟩,
    fun h1 h2 => ⟨_, run_two_ok (run_store_int rfl h1) (run_store_int rfl h2), nearestRange_of ?_ ?_ ?_⟩⟩
  · rintro _ ⟨x, y, a, b, rfl⟩
    push_cast
    constructor <;> linarith [a.1, a.2, b.1, b.2]
  · exact ⟨x1, y1, ⟨le_rfl, hx'⟩, ⟨le_rfl, hy'⟩, by push_cast; rfl⟩
  · exact ⟨x2, y2, ⟨hx', le_rfl⟩, ⟨hy', le_rfl⟩, by push_cast; rfl⟩
  · rintro _ ⟨x, y, a, b, rfl⟩
    push_cast
    constructor <;> linarith [a.1, a.2, b.1, b.2]
  · exact ⟨x1, y2, ⟨le_rfl, hx'⟩, ⟨hy', le_rfl⟩, by push_cast; rfl⟩
  · exact ⟨x2, y1, ⟨hx', le_rfl⟩, ⟨le_rfl, hy'⟩, by push_cast; rfl⟩

/-- **C08**, products of any size: `lo` and `hi` are the least and the greatest product of two endpoints. -/
theorem C08_product_nearest (x1 x2 y1 y2 lo hi : ℤ) (hx : x1 ≤ x2) (hy : y1 ≤ y2) (s : Mode)
    (hlo : lo = min (min (min (x1 * y1) (x1 * y2)) (x2 * y1)) (x2 * y2))
    (hhi : hi = max (max (max (x1 * y1) (x1 * y2)) (x2 * y1)) (x2 * y2))
    (h1 : |(lo : ℚ)| ≤ maxFin) (h2 : |(hi : ℚ)| ≤ maxFin) :
    ∃ Z, FIv.mul ⟨.classical, .int x1, .int x2⟩ ⟨.classical, .int y1, .int y2⟩ s = (.ok Z, s) ∧
      NearestRange Z lo hi
        fun t => ∃ x y : ℝ, ((x1 : ℝ) ≤ x ∧ x ≤ x2) ∧ ((y1 : ℝ) ≤ y ∧ y ≤ y2) ∧ t = x * y := by
  have hx' : (x1 : ℝ) ≤ x2 := by exact_mod_cast hx
  have hy' : (y1 : ℝ) ≤ y2 := by exact_mod_cast hy
  have run : FIv.mul ⟨.classical, .int x1, .int x2⟩ ⟨.classical, .int y1, .int y2⟩ s =
      (.ok ⟨.classical, .dbl (.fin (nearTo (lo : ℚ))), .dbl (.fin (nearTo (hi : ℚ)))⟩, s) := by
    refine run_two_ok (run_store_int ?_ h1) (run_store_int ?_ h2)
    · change Except.ok (((Num.min2 (.int (x1 * y1)) (.int (x1 * y2))).min2 (.int (x2 * y1))).min2 (.int (x2 * y2))) = _
      rw [min2_int, min2_int, min2_int, ← hlo]
    · change Except.ok (((Num.max2 (.int (x1 * y1)) (.int (x1 * y2))).max2 (.int (x2 * y1))).max2 (.int (x2 * y2))) = _
      rw [max2_int, max2_int, max2_int, ← hhi]
  refine ⟨_, run, nearestRange_of ?_ ?_ ?_⟩
  · rintro _ ⟨x, y, a, b, rfl⟩
    have e1 : (lo : ℝ) = min (min (min ((x1 : ℝ) * y1) (x1 * y2)) (x2 * y1)) (x2 * y2) := by rw [hlo]; push_cast; rfl
    have e2 : (hi : ℝ) = max (max (max ((x1 : ℝ) * y1) (x1 * y2)) (x2 * y1)) (x2 * y2) := by rw [hhi]; push_cast; rfl
    have l1 : (lo : ℝ) ≤ x1 * y1 := e1 ▸ ((min_le_left _ _).trans (min_le_left _ _)).trans (min_le_left _ _)
    have l2 : (lo : ℝ) ≤ x1 * y2 := e1 ▸ ((min_le_left _ _).trans (min_le_left _ _)).trans (min_le_right _ _)
    have l3 : (lo : ℝ) ≤ x2 * y1 := e1 ▸ (min_le_left _ _).trans (min_le_right _ _)
    have l4 : (lo : ℝ) ≤ x2 * y2 := e1 ▸ min_le_right _ _
    have u1 : (x1 : ℝ) * y1 ≤ hi := e2 ▸ (le_max_left _ _).trans ((le_max_left _ _).trans (le_max_left _ _))
    have u2 : (x1 : ℝ) * y2 ≤ hi := e2 ▸ (le_max_right _ _).trans ((le_max_left _ _).trans (le_max_left _ _))
    have u3 : (x2 : ℝ) * y1 ≤ hi := e2 ▸ (le_max_right _ _).trans (le_max_left _ _)
    have u4 : (x2 : ℝ) * y2 ≤ hi := e2 ▸ le_max_right _ _
    obtain ⟨a1, a2⟩ := a
    obtain ⟨b1, b2⟩ := b
    rcases le_total 0 x with h | h
    · have p : x * y1 ≤ x * y ∧ x * y ≤ x * y2 := ⟨mul_le_mul_of_nonneg_left b1 h, mul_le_mul_of_nonneg_left b2 h⟩
      constructor
      · rcases le_total 0 (y1 : ℝ) with k | k
        · nlinarith [mul_le_mul_of_nonneg_right a1 k]
        · nlinarith [mul_le_mul_of_nonpos_right a2 k]
      · rcases le_total 0 (y2 : ℝ) with k | k
        · nlinarith [mul_le_mul_of_nonneg_right a2 k]
        · nlinarith [mul_le_mul_of_nonpos_right a1 k]
    · have p : x * y2 ≤ x * y ∧ x * y ≤ x * y1 := ⟨mul_le_mul_of_nonpos_left b2 h, mul_le_mul_of_nonpos_left b1 h⟩
      constructor
      · rcases le_total 0 (y2 : ℝ) with k | k
        · nlinarith [mul_le_mul_of_nonneg_right a1 k]
        · nlinarith [mul_le_mul_of_nonpos_right a2 k]
      · rcases le_total 0 (y1 : ℝ) with k | k
        · nlinarith [mul_le_mul_of_nonneg_right a2 k]
        · nlinarith [mul_le_mul_of_nonpos_right a1 k]
  all_goals
    have ends : ∀ z : ℤ, (z = x1 * y1 ∨ z = x1 * y2 ∨ z = x2 * y1 ∨ z = x2 * y2) →
        ∃ x y : ℝ, ((x1 : ℝ) ≤ x ∧ x ≤ x2) ∧ ((y1 : ℝ) ≤ y ∧ y ≤ y2) ∧ (z : ℝ) = x * y := by
      rintro z (rfl | rfl | rfl | rfl)
      · exact ⟨x1, y1, ⟨le_rfl, hx'⟩, ⟨le_rfl, hy'⟩, by push_cast; rfl⟩
      · exact ⟨x1, y2, ⟨le_rfl, hx'⟩, ⟨hy', le_rfl⟩, by push_cast; rfl⟩
      · exact ⟨x2, y1, ⟨hx', le_rfl⟩, ⟨le_rfl, hy'⟩, by push_cast; rfl⟩
      · exact ⟨x2, y2, ⟨hx', le_rfl⟩, ⟨hy', le_rfl⟩, by push_cast; rfl⟩
    apply ends
  · rw [hlo]; omega
  · rw [hhi]; omega

theorem round_large {z : ℤ} (h : (2 : ℚ) ^ 1024 ≤ |(z : ℚ)|) (q : ℚ) : round .nearest (z : ℚ) ≠ .fin q := by
  have hm : (maxFin : ℚ) < 2 ^ 1024 := by
    unfold maxFin
    rw [show (2 : ℚ) ^ 1024 = 2 ^ 53 * 2 ^ 971 by rw [← pow_add]]
    exact mul_lt_mul_of_pos_right (by linarith) (by positivity)
  have hp : (0 : ℚ) ≤ maxFin := le_trans (by norm_num) two53_le_maxFin
  rcases le_abs.mp h with h | h
  · have := (le_floorTo (isF_two_pow 1024) h).trans (floorTo_le_nearTo _)
    simp only [round]
    rw [if_pos (lt_of_lt_of_le hm this)]
    exact Dbl.noConfusion
  · have := (nearTo_le_ceilTo _).trans (ceilTo_le (isF_two_pow 1024).neg (show (z : ℚ) ≤ -2 ^ 1024 by linarith))
    simp only [round]
    generalize (2 : ℚ) ^ 1024 = B at *
    rw [if_neg (by linarith), if_pos (by linarith)]
    exact Dbl.noConfusion

/-- **C08**, the remaining sums: where an exact end is too large for a double, the sum raises `OverflowError`, and the rounding mode is
restored. -/
theorem C08_overflow (x1 x2 y1 y2 : ℤ) (s : Mode) (h : (2 : ℚ) ^ 1024 ≤ |((x1 + y1 : ℤ) : ℚ)|) :
    FIv.add ⟨.classical, .int x1, .int x2⟩ ⟨.classical, .int y1, .int y2⟩ s = (.error .overflowError, s) := by
  have h1 : ((FIv.store (nadd (.int x1) (.int y1))) .down).1 = .error .overflowError := by
    change (Num.toDbl (.int (x1 + y1))).map Num.dbl = _
    unfold Num.toDbl
    have := round_large h
    dsimp only
    generalize round .nearest ((x1 + y1 : ℤ) : ℚ) = r at this ⊢
    cases r with
    | fin q => exact absurd rfl (this q)
    | pinf => rfl
    | ninf => rfl
    | nan => rfl
  unfold FIv.add
  dsimp only
  rw [run_two, h1]
  rfl

/-- The hypotheses are satisfiable, and both things happen: `[2^53+1, 2^53+1] + [0, 0]` loses its only element, and
`[2^53+1, 2^53+2] + [0, 1]` becomes `[2^53, 2^53+4]`, which encloses. -/
example : |((2 ^ 53 + 1 + 0 : ℤ) : ℚ)| ≤ maxFin ∧ NearInteger (2 ^ 53) (2 ^ 53 + 1) ∧ ¬ ((2 ^ 53 + 1 : ℤ) : ℚ) ≤ 2 ^ 53 ∧
    (2 : ℚ) ^ 1024 ≤ |((2 ^ 1024 + 0 : ℤ) : ℚ)| ∧
    nearTo ((2 ^ 53 + 1 : ℤ) : ℚ) = 2 ^ 53 ∧ nearTo ((2 ^ 53 + 3 : ℤ) : ℚ) = 2 ^ 53 + 4 := by
  refine ⟨?_, ⟨by norm_num [abs_le], by norm_num⟩, by norm_num, ?_, by decide +kernel, by decide +kernel⟩
  · have h : (2 : ℚ) ^ 54 ≤ maxFin := by
      have : (2 : ℚ) ^ 54 ≤ 2 ^ 1010 := pow_le_pow_right₀ (by norm_num) (by norm_num)
      exact this.trans two1010_le_maxFin
    refine le_trans ?_ h
    norm_num
  · push_cast
    rw [add_zero]
    exact le_abs_self _

end IntvalPy
