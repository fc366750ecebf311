import Verif.ModelUtils
import Verif.PropsArray
import Verif.PropsFloatWit
import Verif.PropsRefine

/-!
# C94–C97: midpoint and radius in binary64, the helpers of `kernel/utils.py`
-/

set_option autoImplicit false
set_option linter.unusedSectionVars false

namespace IntvalPy
open Spec

/-! ## Rounding between representable bounds -/

/-- The number has the value `q` and is a finite binary64 number (an `int` of that value counts). -/
def Num.IsB64 (x : Num) (q : ℚ) : Prop := x.val = .fin q ∧ IsF q ∧ |q| ≤ maxFin

theorem round_between (m : Mode) {l u x : ℚ} (hl : IsF l) (hu : IsF u) (h1 : -maxFin ≤ l) (h2 : u ≤ maxFin)
    (hlx : l ≤ x) (hxu : x ≤ u) : ∃ r, round m x = .fin r ∧ l ≤ r ∧ r ≤ u ∧ IsF r := by
  have f1 : l ≤ floorTo x := le_floorTo hl hlx
  have f2 : (floorTo x : ℚ) ≤ u := (floorTo_le x).trans hxu
  have c1 : l ≤ ceilTo x := hlx.trans (le_ceilTo x)
  have c2 : (ceilTo x : ℚ) ≤ u := ceilTo_le hu hxu
  have n1 : l ≤ nearTo x := f1.trans (floorTo_le_nearTo x)
  have n2 : (nearTo x : ℚ) ≤ u := (nearTo_le_ceilTo x).trans c2
  cases m with
  | nearest =>
    refine ⟨nearTo x, ?_, n1, n2, nearTo_isF x⟩
    simp only [round]
    rw [if_neg (not_lt.mpr (n2.trans h2)), if_neg (not_lt.mpr (h1.trans n1))]
  | down =>
    refine ⟨floorTo x, ?_, f1, f2, floorTo_isF x⟩
    simp only [round]
    rw [if_neg (not_lt.mpr (f2.trans h2)), if_neg (not_lt.mpr (h1.trans f1))]
  | up =>
    refine ⟨ceilTo x, ?_, c1, c2, ceilTo_isF x⟩
    simp only [round]
    rw [if_neg (not_lt.mpr (c2.trans h2)), if_neg (not_lt.mpr (h1.trans c1))]
  | zero =>
    simp only [round]
    by_cases h : 0 ≤ x
    · refine ⟨floorTo x, ?_, f1, f2, floorTo_isF x⟩
      rw [if_pos h, if_neg (not_lt.mpr (f2.trans h2))]
    · refine ⟨ceilTo x, ?_, c1, c2, ceilTo_isF x⟩
      rw [if_neg h, if_neg (not_lt.mpr (h1.trans c1))]

theorem isF_double {q : ℚ} (h : IsF q) : IsF (2 * q) := by
  obtain ⟨m, e, hm, he, rfl⟩ := h
  refine ⟨m, e + 1, hm, by omega, ?_⟩
  rw [zpow_add₀ (by norm_num)]
  ring

theorem Num.IsB64.toDbl {x : Num} {q : ℚ} (h : x.IsB64 q) : x.toDbl = .ok (.fin q) := by
  obtain ⟨h1, h2, h3⟩ := h
  rw [abs_le] at h3
  cases x with
  | dbl d => simp only [Num.val] at h1; simp [Num.toDbl, h1]
  | int z =>
    simp only [Num.val, Dbl.fin.injEq] at h1
    simp only [Num.toDbl]
    rw [h1, isF_le_maxFin_round .nearest h2 h3.2 h3.1]

/-- The sum of two binary64 numbers, as a Python number, is represented or converted to a value between any
representable bounds of the exact sum. -/
theorem add_then {m : Mode} {x y : Num} {p q l u : ℚ} (hx : x.IsB64 p) (hy : y.IsB64 q) (hl : IsF l) (hu : IsF u)
    (h1 : -maxFin ≤ l) (h2 : u ≤ maxFin) (hlx : l ≤ p + q) (hxu : p + q ≤ u) :
    ∃ s r, Num.add m x y = .ok s ∧ s.toDbl = .ok (.fin r) ∧ l ≤ r ∧ r ≤ u ∧ IsF r := by
  by_cases hi : (∃ z w, x = .int z ∧ y = .int w)
  · obtain ⟨z, w, rfl, rfl⟩ := hi
    have e1 : (z : ℚ) = p := by simpa [Num.val] using hx.1
    have e2 : (w : ℚ) = q := by simpa [Num.val] using hy.1
    obtain ⟨r, hr, h3, h4, h5⟩ := round_between .nearest hl hu h1 h2 hlx hxu
    refine ⟨.int (z + w), r, rfl, ?_, h3, h4, h5⟩
    simp only [Num.toDbl]
    rw [Int.cast_add, e1, e2, hr]
  · obtain ⟨r, hr, h3, h4, h5⟩ := round_between m hl hu h1 h2 hlx hxu
    refine ⟨.dbl (.fin r), r, ?_, rfl, h3, h4, h5⟩
    have hv : Num.viaDbl (fun p q => .ok (Dbl.add m p q)) x y = .ok (.dbl (.fin r)) := by
      simp only [Num.viaDbl, hx.toDbl, hy.toDbl]
      show Except.ok (Num.dbl (Dbl.add m (.fin p) (.fin q))) = _
      simp only [Dbl.add, hr]
    rw [← hv]
    cases x <;> cases y <;> first | rfl | exact absurd ⟨_, _, rfl, rfl⟩ hi

theorem half_mul (m : Mode) {s : Num} {r : ℚ} (h : s.toDbl = .ok (.fin r)) :
    Num.mul m FIv.half s = .ok (.dbl (round m (1 / 2 * r))) := by
  have : Num.mul m FIv.half s = Num.viaDbl (fun p q => .ok (Dbl.mul m p q)) FIv.half s := by
    cases s <;> rfl
  have e : FIv.half.toDbl = .ok (.fin (1 / 2)) := rfl
  rw [this]
  simp only [Num.viaDbl, h, e]
  rfl

/-! ## C94: the midpoint lies in the interval -/

/-- C94 (full statement, false of the code): the computed midpoint of an interval with finite endpoints is a number
of the interval. -/
def C94_statement : Prop :=
  ∀ (m : Mode) (X : FIv) (p q : ℚ), X.a.val = .fin p → X.b.val = .fin q → p ≤ q →
    ∃ v t, X.midN m = .ok v ∧ v.val = .fin t ∧ p ≤ t ∧ t ≤ q

theorem round_two_max : round .nearest (maxFin + maxFin : ℚ) = .pinf := by
  have h : (nearTo (maxFin + maxFin) : ℚ) = maxFin + maxFin := by
    apply nearTo_of_isF
    rw [← two_mul]
    exact isF_double isF_maxFin
  simp only [round]
  rw [h, if_pos]
  have : (0 : ℚ) < maxFin := lt_of_lt_of_le (by norm_num) two53_le_maxFin
  linarith

/-- C94 is false: the sum of the endpoints overflows, so that the midpoint of `[DBL_MAX, DBL_MAX]` is infinite. -/
theorem C94_midpoint_false : ¬ C94_statement ∧
    FIv.midN .nearest ⟨.classical, .dbl (.fin maxFin), .dbl (.fin maxFin)⟩ = .ok (.dbl .pinf) := by
  have h : FIv.midN .nearest ⟨.classical, .dbl (.fin maxFin), .dbl (.fin maxFin)⟩ = .ok (.dbl .pinf) := by
    have e : Num.add .nearest (.dbl (.fin maxFin)) (.dbl (.fin maxFin)) = .ok (.dbl .pinf) := by
      show Except.ok (Num.dbl (round .nearest (maxFin + maxFin))) = _
      rw [round_two_max]
    simp only [FIv.midN, e]
    show Except.ok (Num.dbl (Dbl.infTimes (1 / 2) true)) = _
    norm_num [Dbl.infTimes]
  refine ⟨fun hs => ?_, h⟩
  obtain ⟨v, t, h1, h2, _⟩ := hs .nearest ⟨.classical, .dbl (.fin maxFin), .dbl (.fin maxFin)⟩ maxFin maxFin rfl rfl le_rfl
  rw [h] at h1
  cases h1
  cases h2

/-- C94, partial: endpoints that are binary64 numbers (floats, or integers with that value) of at most half the
largest one; the midpoint lies in the interval in every rounding mode.
Missing: larger endpoints (false by overflow) and integer endpoints beyond `2^53` that are not floats (false, see
`C94_midpoint_int`). -/
theorem C94_midpoint_partial (m : Mode) (X : FIv) (p q : ℚ) (ha : X.a.IsB64 p) (hb : X.b.IsB64 q) (hpq : p ≤ q)
    (h1 : -maxFin ≤ 2 * p) (h2 : 2 * q ≤ maxFin) :
    ∃ t, X.midN m = .ok (.dbl (.fin t)) ∧ p ≤ t ∧ t ≤ q ∧ IsF t := by
  obtain ⟨s, r, hs, hr, h3, h4, _⟩ := add_then (m := m) hb ha (isF_double ha.2.1) (isF_double hb.2.1) h1 h2
    (by linarith) (by linarith)
  have hp := abs_le.mp ha.2.2
  have hq := abs_le.mp hb.2.2
  obtain ⟨t, ht, h5, h6, h7⟩ := round_between m ha.2.1 hb.2.1 hp.1 hq.2 (x := 1 / 2 * r) (by linarith) (by linarith)
  refine ⟨t, ?_, h5, h6, h7⟩
  simp only [FIv.midN, hs, half_mul m hr, ht]

example : ∃ t, FIv.midN .nearest ⟨.classical, .int 1, .dbl (.fin (5 / 2))⟩ = .ok (.dbl (.fin t)) ∧ 1 ≤ t ∧ t ≤ 5 / 2 := by
  have hm : (2 : ℚ) ^ 53 ≤ maxFin := two53_le_maxFin
  obtain ⟨t, h1, h2, h3, _⟩ := C94_midpoint_partial .nearest ⟨.classical, .int 1, .dbl (.fin (5 / 2))⟩ 1 (5 / 2)
    ⟨by simp [Num.val], by simpa using isF_int (K := ℚ) (z := 1) (by norm_num), by norm_num; linarith⟩
    ⟨rfl, ⟨5, -1, by norm_num, by norm_num, by norm_num⟩, by rw [abs_of_pos (by norm_num)]; linarith⟩
    (by norm_num) (by linarith) (by linarith)
  exact ⟨t, h1, h2, h3⟩

/-- C94 (large integers): the midpoint of the degenerate interval `[2^53 + 1, 2^53 + 1]` with integer endpoints is
`2^53`, below the interval. -/
theorem C94_midpoint_int : FIv.midN .nearest ⟨.classical, .int (2 ^ 53 + 1), .int (2 ^ 53 + 1)⟩ =
    .ok (.dbl (.fin (2 ^ 53))) := by
  have e : nearTo (((2 : ℤ) ^ 53 + 1 + (2 ^ 53 + 1) : ℤ) : ℚ) = 2 ^ 54 := by
    rw [nearTo_eq (n := 54) (k := 2 ^ 52) (by norm_num [abs_of_pos]) (by norm_num [abs_of_pos]) (by norm_num)]
    · norm_num
    · have hf : ⌊(((2 : ℤ) ^ 53 + 1 + (2 ^ 53 + 1) : ℤ) : ℚ) / 2 ^ ((54 : ℤ) - 52)⌋ = 2 ^ 52 := by
        rw [Int.floor_eq_iff]; norm_num
      unfold nearInt
      simp only [hf]
      norm_num
  have h54 : (2 : ℚ) ^ 54 ≤ maxFin := le_trans (pow_le_pow_right₀ (by norm_num) (by norm_num)) two1010_le_maxFin
  have h0 : (0 : ℚ) ≤ maxFin := le_trans (by positivity) h54
  have hr : (Num.int (2 ^ 53 + 1 + (2 ^ 53 + 1))).toDbl = .ok (.fin (2 ^ 54)) := by
    simp only [Num.toDbl, round, e]
    rw [if_neg (not_lt.mpr h54), if_neg (by
      have : (0 : ℚ) ≤ 2 ^ 54 := by norm_num
      linarith)]
  have ha : Num.add .nearest (.int (2 ^ 53 + 1)) (.int (2 ^ 53 + 1)) = .ok (.int (2 ^ 53 + 1 + (2 ^ 53 + 1))) := rfl
  simp only [FIv.midN, ha, half_mul _ hr]
  rw [show (1 / 2 * 2 ^ 54 : ℚ) = 2 ^ 53 by norm_num, isF_le_maxFin_round .nearest (isF_two_pow 53) two53_le_maxFin (by
    have : (0 : ℚ) ≤ 2 ^ 53 := by norm_num
    linarith)]

/-! ## C95: midpoint and radius describe the interval -/

theorem nearInt_err (s : ℚ) : |(nearInt s : ℚ) - s| ≤ 1 / 2 := by
  have h1 := Int.floor_le s
  have h2 := Int.lt_floor_add_one s
  unfold nearInt
  dsimp only
  split_ifs with h h' h''
  · rw [abs_le]; constructor <;> linarith
  · push_cast; rw [abs_le]; constructor <;> linarith
  · rw [abs_le]; constructor <;> linarith
  · push_cast; rw [abs_le]; constructor <;> linarith

/-- The error of rounding to nearest: half a unit in the last place. -/
theorem nearTo_err (x : ℚ) : |nearTo x - x| ≤ 2 ^ (-53 : ℤ) * |x| + 2 ^ (-1075 : ℤ) := by
  by_cases hx : x = 0
  · subst hx
    rw [nearTo_of_isF isF_zero, sub_zero, abs_zero, mul_zero, zero_add]
    exact (zpow_pos (by norm_num) _).le
  have hu := ulp_pos x
  have h1 : |nearTo x - x| ≤ 1 / 2 * ulp x := by
    have e : nearTo x - x = ((nearInt (x / ulp x) : ℚ) - x / ulp x) * ulp x := by
      rw [sub_mul, div_mul_cancel₀ _ hu.ne']; rfl
    rw [e, abs_mul, abs_of_pos hu]
    exact mul_le_mul_of_nonneg_right (nearInt_err _) hu.le
  refine h1.trans ?_
  have h2 : ulp x ≤ 2 ^ (-52 : ℤ) * |x| + 2 ^ (-1074 : ℤ) := by
    have hl : (2 : ℚ) ^ (Int.log 2 |x|) ≤ |x| := by
      have := Int.zpow_log_le_self (b := 2) (r := |x|) (by norm_num) (abs_pos.mpr hx)
      exact_mod_cast this
    unfold ulp ulpExp
    rcases le_total (-1074 : ℤ) (Int.log 2 |x| - 52) with h | h
    · rw [max_eq_right h, zpow_sub₀ (by norm_num)]
      have : (0 : ℚ) < 2 ^ (-1074 : ℤ) := zpow_pos (by norm_num) _
      rw [zpow_neg (2 : ℚ) 52, div_eq_mul_inv, mul_comm]
      have h3 : (0 : ℚ) < (2 ^ (52 : ℤ))⁻¹ := by positivity
      nlinarith
    · rw [max_eq_left h]
      have : (0 : ℚ) ≤ 2 ^ (-52 : ℤ) * |x| := by positivity
      linarith
  have e1 : (2 : ℚ) ^ (-53 : ℤ) = 1 / 2 * 2 ^ (-52 : ℤ) := by norm_num
  have e2 : (2 : ℚ) ^ (-1074 : ℤ) = 2 * 2 ^ (-1075 : ℤ) := by
    rw [show (-1074 : ℤ) = 1 + (-1075) by norm_num, zpow_add₀ (by norm_num), zpow_one]
  rw [e1]
  rw [e2] at h2
  generalize (2 : ℚ) ^ (-1075 : ℤ) = η at *
  generalize (2 : ℚ) ^ (-52 : ℤ) = w at *
  linarith

theorem round_near {t : ℚ} (h : |t| ≤ maxFin) : round .nearest t = .fin (nearTo t) := by
  rw [abs_le] at h
  have h1 : (nearTo t : ℚ) ≤ maxFin := (nearTo_le_ceilTo t).trans (ceilTo_le isF_maxFin h.2)
  have h2 : -maxFin ≤ (nearTo t : ℚ) := (le_floorTo isF_maxFin.neg h.1).trans (floorTo_le_nearTo t)
  simp only [round]
  rw [if_neg (not_lt.mpr h1), if_neg (not_lt.mpr h2)]

theorem add_near {x y : Num} {p q : ℚ} (hx : x.IsB64 p) (hy : y.IsB64 q) (h : |p + q| ≤ maxFin) :
    ∃ s, Num.add .nearest x y = .ok s ∧ s.toDbl = .ok (.fin (nearTo (p + q))) := by
  by_cases hi : (∃ z w, x = .int z ∧ y = .int w)
  · obtain ⟨z, w, rfl, rfl⟩ := hi
    have e1 : (z : ℚ) = p := by simpa [Num.val] using hx.1
    have e2 : (w : ℚ) = q := by simpa [Num.val] using hy.1
    refine ⟨.int (z + w), rfl, ?_⟩
    simp only [Num.toDbl]
    rw [Int.cast_add, e1, e2, round_near h]
  · refine ⟨.dbl (.fin (nearTo (p + q))), ?_, rfl⟩
    have hv : Num.viaDbl (fun p q => .ok (Dbl.add .nearest p q)) x y = .ok (.dbl (.fin (nearTo (p + q)))) := by
      simp only [Num.viaDbl, hx.toDbl, hy.toDbl]
      show Except.ok (Num.dbl (Dbl.add .nearest (.fin p) (.fin q))) = _
      simp only [Dbl.add, round_near h]
    rw [← hv]
    cases x <;> cases y <;> first | rfl | exact absurd ⟨_, _, rfl, rfl⟩ hi

theorem sub_near {x y : Num} {p q : ℚ} (hx : x.IsB64 p) (hy : y.IsB64 q) (h : |p - q| ≤ maxFin) :
    ∃ s, Num.sub .nearest x y = .ok s ∧ s.toDbl = .ok (.fin (nearTo (p - q))) := by
  by_cases hi : (∃ z w, x = .int z ∧ y = .int w)
  · obtain ⟨z, w, rfl, rfl⟩ := hi
    have e1 : (z : ℚ) = p := by simpa [Num.val] using hx.1
    have e2 : (w : ℚ) = q := by simpa [Num.val] using hy.1
    refine ⟨.int (z - w), rfl, ?_⟩
    simp only [Num.toDbl]
    rw [Int.cast_sub, e1, e2, round_near h]
  · refine ⟨.dbl (.fin (nearTo (p - q))), ?_, rfl⟩
    have hv : Num.viaDbl (fun p q => .ok (Dbl.sub .nearest p q)) x y = .ok (.dbl (.fin (nearTo (p - q)))) := by
      simp only [Num.viaDbl, hx.toDbl, hy.toDbl]
      show Except.ok (Num.dbl (Dbl.add .nearest (.fin p) (.fin (-q)))) = _
      simp only [Dbl.add, ← sub_eq_add_neg, round_near h]
    rw [← hv]
    cases x <;> cases y <;> first | rfl | exact absurd ⟨_, _, rfl, rfl⟩ hi

theorem near_half_le {t : ℚ} (h : |t| ≤ maxFin) : |1 / 2 * (nearTo t : ℚ)| ≤ maxFin := by
  rw [abs_le] at h
  have h1 : (nearTo t : ℚ) ≤ maxFin := (nearTo_le_ceilTo t).trans (ceilTo_le isF_maxFin h.2)
  have h2 : -maxFin ≤ (nearTo t : ℚ) := (le_floorTo isF_maxFin.neg h.1).trans (floorTo_le_nearTo t)
  have h0 : (0 : ℚ) ≤ maxFin := le_trans (by norm_num) two53_le_maxFin
  rw [abs_le]
  constructor <;> linarith

/-- The values of `mid` and `rad` in the default rounding mode. -/
theorem mid_rad_values (X : FIv) (p q : ℚ) (ha : X.a.IsB64 p) (hb : X.b.IsB64 q) (h1 : 2 * |p| ≤ maxFin)
    (h2 : 2 * |q| ≤ maxFin) :
    X.midN .nearest = .ok (.dbl (.fin (nearTo (1 / 2 * nearTo (q + p))))) ∧
    X.radN .nearest = .ok (.dbl (.fin (nearTo (1 / 2 * nearTo (q - p))))) := by
  have hs : |q + p| ≤ maxFin := by
    have := abs_add_le q p
    linarith
  have hd : |q - p| ≤ maxFin := by
    have := abs_sub q p
    linarith
  obtain ⟨s, e1, e2⟩ := add_near hb ha hs
  obtain ⟨d, e3, e4⟩ := sub_near hb ha hd
  constructor
  · simp only [FIv.midN, e1, half_mul _ e2, round_near (near_half_le hs)]
  · simp only [FIv.radN, FIv.widN, e3, half_mul _ e4, round_near (near_half_le hd)]

/-- The points of the interval are within `slack` of the ball given by the computed midpoint and radius. -/
def BallCovers (X : FIv) (p q slack : ℚ) : Prop :=
  ∃ t r, X.midN .nearest = .ok (.dbl (.fin t)) ∧ X.radN .nearest = .ok (.dbl (.fin r)) ∧
    ∀ x, p ≤ x → x ≤ q → |x - t| ≤ r + slack

/-- C95 (full statement, false of the code): every point of an interval is at distance at most `rad` from `mid`. -/
def C95_statement : Prop :=
  ∀ (X : FIv) (p q : ℚ), X.a.IsB64 p → X.b.IsB64 q → p ≤ q → 2 * |p| ≤ maxFin → 2 * |q| ≤ maxFin →
    BallCovers X p q 0

/-- C95 is false: `[-1, 2^-60]` has the computed midpoint `-1/2` and radius `1/2`, and its upper endpoint is not
covered. -/
theorem C95_ball_false : ¬ C95_statement := by
  intro h
  have hm := two53_le_maxFin
  have i1 : (Num.dbl (.fin (-1))).IsB64 (-1) := ⟨rfl, ⟨-1, 0, by norm_num, by norm_num, by norm_num⟩, by
    norm_num at hm ⊢; linarith⟩
  have i2 : (Num.dbl (.fin (1 / 2 ^ 60))).IsB64 (1 / 2 ^ 60) := ⟨rfl, ⟨1, -60, by norm_num, by norm_num, by norm_num⟩, by
    rw [abs_of_pos (by norm_num)]; norm_num at hm ⊢; linarith⟩
  have hp : 2 * |(-1 : ℚ)| ≤ maxFin := by norm_num at hm ⊢; linarith
  have hq : 2 * |(1 / 2 ^ 60 : ℚ)| ≤ maxFin := by
    rw [abs_of_pos (by norm_num)]; norm_num at hm ⊢; linarith
  obtain ⟨t, r, h1, h2, h3⟩ := h ⟨.classical, .dbl (.fin (-1)), .dbl (.fin (1 / 2 ^ 60))⟩ (-1) (1 / 2 ^ 60) i1 i2
    (by norm_num) hp hq
  obtain ⟨v1, v2⟩ := mid_rad_values ⟨.classical, .dbl (.fin (-1)), .dbl (.fin (1 / 2 ^ 60))⟩ (-1) (1 / 2 ^ 60) i1 i2 hp hq
  have n1 : (nearTo (1 / 2 ^ 60 + -1) : ℚ) = -1 := by
    rw [nearTo_eq (n := -1) (k := -2 ^ 53) (by norm_num) (by norm_num) (by norm_num)]
    · norm_num
    · have hf : ⌊(1 / 2 ^ 60 + -1 : ℚ) / 2 ^ ((-1 : ℤ) - 52)⌋ = -2 ^ 53 := by
        rw [Int.floor_eq_iff]; norm_num
      unfold nearInt
      simp only [hf]
      norm_num
  have n2 : (nearTo (1 / 2 ^ 60 - -1) : ℚ) = 1 := by
    rw [nearTo_eq (n := 0) (k := 2 ^ 52) (by norm_num) (by norm_num) (by norm_num)]
    · norm_num
    · have hf : ⌊(1 / 2 ^ 60 - -1 : ℚ) / 2 ^ ((0 : ℤ) - 52)⌋ = 2 ^ 52 := by
        rw [Int.floor_eq_iff]; norm_num
      unfold nearInt
      simp only [hf]
      norm_num
  have n3 : (nearTo (1 / 2 * -1) : ℚ) = -1 / 2 := by
    rw [nearTo_of_isF ⟨-1, -1, by norm_num, by norm_num, by norm_num⟩]; norm_num
  have n4 : (nearTo (1 / 2 * 1) : ℚ) = 1 / 2 := by
    rw [nearTo_of_isF ⟨1, -1, by norm_num, by norm_num, by norm_num⟩]; norm_num
  rw [n1, n3] at v1
  rw [n2, n4] at v2
  rw [v1] at h1
  rw [v2] at h2
  cases h1
  cases h2
  have := h3 (1 / 2 ^ 60) (by norm_num) le_rfl
  norm_num at this

/-- C95, partial: the points of an interval whose endpoints are binary64 numbers (at most half the largest one in
magnitude) are at distance at most `rad` from `mid` up to the rounding error `2^-51 (|a| + |b|) + 2^-1073`.
Missing: the slack cannot be dropped (`C95_ball_false`). -/
theorem C95_ball_partial (X : FIv) (p q : ℚ) (ha : X.a.IsB64 p) (hb : X.b.IsB64 q) (hpq : p ≤ q)
    (h1 : 2 * |p| ≤ maxFin) (h2 : 2 * |q| ≤ maxFin) :
    BallCovers X p q (2 ^ (-51 : ℤ) * (|p| + |q|) + 2 ^ (-1073 : ℤ)) := by
  obtain ⟨v1, v2⟩ := mid_rad_values X p q ha hb h1 h2
  refine ⟨_, _, v1, v2, fun x hx hx' => ?_⟩
  have a1 := nearTo_err (q + p)
  have a2 := nearTo_err (1 / 2 * nearTo (q + p))
  have a3 := nearTo_err (q - p)
  have a4 := nearTo_err (1 / 2 * nearTo (q - p))
  have b1 : |q + p| ≤ |p| + |q| := by have := abs_add_le q p; linarith
  have b2 : |q - p| ≤ |p| + |q| := by have := abs_sub q p; linarith
  have hu : (2 : ℚ) ^ (-51 : ℤ) = 4 * 2 ^ (-53 : ℤ) := by norm_num
  have he : (2 : ℚ) ^ (-1073 : ℤ) = 4 * 2 ^ (-1075 : ℤ) := by
    rw [show (-1073 : ℤ) = 2 + (-1075) by norm_num, zpow_add₀ (by norm_num)]; norm_num
  have hu1 : (2 : ℚ) ^ (-53 : ℤ) ≤ 1 / 4 := by norm_num
  have hu0 : (0 : ℚ) < 2 ^ (-53 : ℤ) := by positivity
  have he0 : (0 : ℚ) < 2 ^ (-1075 : ℤ) := zpow_pos (by norm_num) _
  rw [hu, he]
  generalize (2 : ℚ) ^ (-53 : ℤ) = u at *
  generalize (2 : ℚ) ^ (-1075 : ℤ) = η at *
  generalize nearTo (1 / 2 * nearTo (q + p)) = t at *
  generalize nearTo (1 / 2 * nearTo (q - p)) = r at *
  generalize (nearTo (q + p) : ℚ) = s at *
  generalize (nearTo (q - p) : ℚ) = d at *
  have hM : 0 ≤ |p| + |q| := by positivity
  generalize |p| + |q| = M at *
  rw [abs_mul, abs_of_pos (by norm_num : (0 : ℚ) < 1 / 2)] at a2 a4
  have c1 : |s| ≤ |q + p| + |s - (q + p)| := by
    have := abs_add_le (q + p) (s - (q + p)); rwa [add_sub_cancel] at this
  have c2 : |d| ≤ |q - p| + |d - (q - p)| := by
    have := abs_add_le (q - p) (d - (q - p)); rwa [add_sub_cancel] at this
  have uM1 : u * |q + p| ≤ u * M := mul_le_mul_of_nonneg_left b1 hu0.le
  have uM2 : u * |q - p| ≤ u * M := mul_le_mul_of_nonneg_left b2 hu0.le
  have uMM : u * (u * M) ≤ 1 / 4 * (u * M) := mul_le_mul_of_nonneg_right hu1 (by positivity)
  have uη : u * η ≤ 1 / 4 * η := mul_le_mul_of_nonneg_right hu1 he0.le
  have s1 : u * |s| ≤ u * (M + (u * M + η)) := mul_le_mul_of_nonneg_left (by linarith) hu0.le
  have d1 : u * |d| ≤ u * (M + (u * M + η)) := mul_le_mul_of_nonneg_left (by linarith) hu0.le
  have uM0 : 0 ≤ u * M := by positivity
  have f1 := abs_le.mp a1
  have f2 := abs_le.mp a2
  have f3 := abs_le.mp a3
  have f4 := abs_le.mp a4
  rw [abs_le]
  constructor <;> nlinarith

example : BallCovers ⟨.classical, .dbl (.fin (-1)), .dbl (.fin (1 / 2 ^ 60))⟩ (-1) (1 / 2 ^ 60)
    (2 ^ (-51 : ℤ) * (|(-1)| + |1 / 2 ^ 60|) + 2 ^ (-1073 : ℤ)) := by
  have hm := two53_le_maxFin
  refine C95_ball_partial _ _ _ ⟨rfl, ⟨-1, 0, by norm_num, by norm_num, by norm_num⟩, by norm_num at hm ⊢; linarith⟩
    ⟨rfl, ⟨1, -60, by norm_num, by norm_num, by norm_num⟩, by rw [abs_of_pos (by norm_num)]; norm_num at hm ⊢; linarith⟩
    (by norm_num) (by norm_num at hm ⊢; linarith) (by rw [abs_of_pos (by norm_num)]; norm_num at hm ⊢; linarith)

/-! ## C96: the helpers treat arrays element by element -/

/-- The helper returns, position by position, its value at the element. -/
def Elementwise (h : Helper) (m : Mode) (xs : List UArg) : Prop :=
  ∃ l, h.onArray m xs = .ok l ∧ l.length = xs.length ∧
    ∀ (i : ℕ) (x : UArg), xs[i]? = some x → ∃ v w, l[i]? = some v ∧ h.elem m x = .ok w ∧ v.val = w.val

/-- C96 (full statement, false of the code): a helper applied to a nonempty list of numbers and intervals (or to an
interval array) whose elements it can process returns the array of the values at the elements. -/
def C96_statement : Prop :=
  ∀ (h : Helper) (m : Mode) (xs : List UArg), xs ≠ [] → (∀ x ∈ xs, ∃ v, h.elem m x = .ok v) → Elementwise h m xs

theorem mapM_get {α β : Type} (f : α → Except Err β) : ∀ (xs : List α), (∀ x ∈ xs, ∃ v, f x = .ok v) →
    ∃ l, xs.mapM f = .ok l ∧ l.length = xs.length ∧ ∀ (i : ℕ) (x : α), xs[i]? = some x → ∃ w, l[i]? = some w ∧ f x = .ok w
  | [], _ => ⟨[], rfl, rfl, by simp⟩
  | x :: xs, h => by
    obtain ⟨v, hv⟩ := h x (by simp)
    obtain ⟨l, h1, h2, h3⟩ := mapM_get f xs fun y hy => h y (by simp [hy])
    refine ⟨v :: l, ?_, by simp [h2], ?_⟩
    · rw [List.mapM_cons, hv, h1]; rfl
    · rintro (_ | i) y hy
      · simp only [List.getElem?_cons_zero, Option.some.injEq] at hy
        subst hy
        exact ⟨v, rfl, hv⟩
      · simp only [List.getElem?_cons_succ] at hy
        obtain ⟨w, h4, h5⟩ := h3 i y hy
        exact ⟨w, by simpa using h4, h5⟩

/-- The cast to the type of the first output keeps the values. -/
theorem elementwise_of {h : Helper} {m : Mode} {xs : List UArg} (hok : ∀ x ∈ xs, ∃ v, h.elem m x = .ok v)
    (hv : ∀ vs, xs.mapM (h.elem m) = .ok vs → ∃ l, npVectorizeNum vs = .ok l ∧ l.map Num.val = vs.map Num.val) :
    Elementwise h m xs := by
  obtain ⟨vs, h1, h2, h3⟩ := mapM_get (h.elem m) xs hok
  obtain ⟨l, h4, h5⟩ := hv vs h1
  have hlen : l.length = vs.length := by simpa using congrArg List.length h5
  refine ⟨l, by simp only [Helper.onArray, h1, h4], hlen.trans h2, fun i x hx => ?_⟩
  obtain ⟨w, h6, h7⟩ := h3 i x hx
  have h8 := congrArg (fun t => t[i]?) h5
  simp only [List.getElem?_map, h6, Option.map_some] at h8
  cases hl : l[i]? with
  | none => rw [hl] at h8; simp at h8
  | some v =>
    rw [hl] at h8
    exact ⟨v, w, rfl, h7, by simpa using h8⟩

theorem mul_half_dbl {m : Mode} {s v : Num} (h : Num.mul m FIv.half s = .ok v) : ∃ d, v = .dbl d := by
  have : Num.mul m FIv.half s = Num.viaDbl (fun p q => .ok (Dbl.mul m p q)) FIv.half s := by
    cases s <;> rfl
  rw [this] at h
  simp only [Num.viaDbl] at h
  cases h1 : FIv.half.toDbl with
  | error e => rw [h1] at h; cases h
  | ok p =>
    cases h2 : s.toDbl with
    | error e => rw [h1, h2] at h; cases h
    | ok q =>
      rw [h1, h2] at h
      cases h
      exact ⟨_, rfl⟩

/-- The outputs of `mid`, `rad`, `mag` and, on intervals, of `khi` are floats. -/
theorem elem_dbl {h : Helper} {m : Mode} {x : UArg} {v : Num} (hv : h.elem m x = .ok v)
    (hh : h = .mid ∨ h = .rad ∨ h = .mag ∨ (h = .khi ∧ ∃ X, x = .iv X)) : ∃ d, v = .dbl d := by
  have hmap : ∀ {e : Except Err Dbl} {v : Num}, e.map Num.dbl = .ok v → ∃ d, v = .dbl d := by
    intro e v h
    cases e with
    | error e => cases h
    | ok d => cases h; exact ⟨_, rfl⟩
  have hmax : ∀ p q : Dbl, ∃ d, (Num.dbl p).max2 (.dbl q) = .dbl d := by
    intro p q
    unfold Num.max2
    split_ifs
    · exact ⟨_, rfl⟩
    · exact ⟨_, rfl⟩
  rcases hh with rfl | rfl | rfl | ⟨rfl, X, rfl⟩
  · cases x with
    | num c => exact hmap hv
    | iv X =>
      simp only [Helper.elem, FIv.midN] at hv
      cases h1 : Num.add m X.b X.a with
      | error e => rw [h1] at hv; cases hv
      | ok s => rw [h1] at hv; exact mul_half_dbl hv
  · cases x with
    | num c => cases hv; exact ⟨_, rfl⟩
    | iv X =>
      simp only [Helper.elem, FIv.radN] at hv
      cases h1 : X.widN m with
      | error e => rw [h1] at hv; cases hv
      | ok s => rw [h1] at hv; exact mul_half_dbl hv
  · cases x with
    | num c => exact hmap hv
    | iv X =>
      simp only [Helper.elem, FIv.magN] at hv
      cases h1 : X.a.fabs with
      | error e => rw [h1] at hv; cases hv
      | ok p =>
        cases h2 : X.b.fabs with
        | error e => rw [h1, h2] at hv; cases hv
        | ok q => rw [h1, h2] at hv; cases hv; exact hmax p q
  · simp only [Helper.elem, FIv.khiN] at hv
    cases h1 : X.a.fabs with
    | error e => rw [h1] at hv; cases hv
    | ok p =>
      cases h2 : X.b.fabs with
      | error e => rw [h1, h2] at hv; cases hv
      | ok q =>
        rw [h1, h2] at hv
        dsimp only at hv
        split_ifs at hv
        · exact div_isDbl hv
        · exact div_isDbl hv

/-- `mid`, `rad` and `mag` of any array, and `khi` of an interval array, are exact copies of the elementwise
values. -/
theorem C96_floats (h : Helper) (m : Mode) (xs : List UArg) (hne : xs ≠ [])
    (hok : ∀ x ∈ xs, ∃ v, h.elem m x = .ok v)
    (hh : h = .mid ∨ h = .rad ∨ h = .mag ∨ (h = .khi ∧ ∀ x ∈ xs, ∃ X, x = .iv X)) : Elementwise h m xs := by
  refine elementwise_of hok fun vs hvs => ?_
  obtain ⟨vs', h1, h2, h3⟩ := mapM_get (h.elem m) xs hok
  obtain rfl : vs' = vs := by rw [h1] at hvs; exact Except.ok.inj hvs
  have hd : ∀ v ∈ vs', ∃ d, v = Num.dbl d := by
    intro v hv
    obtain ⟨i, hi⟩ := List.mem_iff_getElem?.mp hv
    have hlt : i < xs.length := by
      rw [← h2]
      exact (List.getElem?_eq_some_iff.mp hi).1
    obtain ⟨w, h4, h5⟩ := h3 i xs[i] (List.getElem?_eq_getElem hlt)
    rw [hi] at h4
    cases h4
    refine elem_dbl h5 ?_
    rcases hh with h | h | h | ⟨h, h'⟩
    · exact Or.inl h
    · exact Or.inr (Or.inl h)
    · exact Or.inr (Or.inr (Or.inl h))
    · exact Or.inr (Or.inr (Or.inr ⟨h, h' _ (List.getElem_mem hlt)⟩))
  cases vs' with
  | nil =>
    have : xs = [] := List.eq_nil_of_length_eq_zero h2.symm
    exact absurd this hne
  | cons v vs =>
    obtain ⟨d, rfl⟩ := hd v (by simp)
    refine npVectorize_float_first d vs fun x hx => ?_
    obtain ⟨d', rfl⟩ := hd x (by simp [hx])
    trivial

/-- C96 is false: `khi([3, Interval(1, 2)])` is `[1, 0]` because the value for the number is the integer `1`, and
`wid` of the array `[[1, 2], [0.25, 0.5]]` is `[1, 0]` because the first width is an integer. -/
theorem C96_helpers_false : ¬ C96_statement ∧
    Helper.onArray .khi .nearest [.num (.int 3), .iv ⟨.classical, .int 1, .int 2⟩] = .ok [.int 1, .int 0] ∧
    Helper.onArray .wid .nearest [.iv ⟨.classical, .int 1, .int 2⟩,
      .iv ⟨.classical, .dbl (.fin (1 / 4)), .dbl (.fin (1 / 2))⟩] = .ok [.int 1, .int 0] := by
  have rh : round .nearest (((1 : ℤ) : ℚ) / ((2 : ℤ) : ℚ)) = .fin (1 / 2) := by
    have e : (((1 : ℤ) : ℚ) / ((2 : ℤ) : ℚ)) = 1 / 2 := by norm_num
    have hm := two53_le_maxFin
    rw [e, isF_le_maxFin_round .nearest ⟨1, -1, by norm_num, by norm_num, by norm_num⟩ (by norm_num at hm ⊢; linarith)
      (by norm_num at hm ⊢; linarith)]
  have f1 : (Num.int 1).fabs = .ok (.fin 1) := by
    have e := toDbl_of_small (n := .int 1) (by norm_num [Num.IntsLe])
    simp [Num.fabs, e, Num.val]
  have f2 : (Num.int 2).fabs = .ok (.fin 2) := by
    have e := toDbl_of_small (n := .int 2) (by norm_num [Num.IntsLe])
    simp [Num.fabs, e, Num.val]
  have kh : FIv.khiN .nearest ⟨.classical, .int 1, .int 2⟩ = .ok (.dbl (.fin (1 / 2))) := by
    simp only [FIv.khiN, f1, f2]
    rw [if_pos (by norm_num [Dbl.le])]
    simp only [Num.div]
    rw [if_neg (by norm_num), if_pos (by norm_num), rh]
  have t4 : truncQ (1 / 2) = 0 := by
    rw [truncQ, if_pos (by norm_num), show ⌊(1 / 2 : ℚ)⌋ = 0 by norm_num [Int.floor_eq_iff]]
  have t5 : truncQ (1 / 4) = 0 := by
    rw [truncQ, if_pos (by norm_num), show ⌊(1 / 4 : ℚ)⌋ = 0 by norm_num [Int.floor_eq_iff]]
  have hk : Helper.onArray .khi .nearest [.num (.int 3), .iv ⟨.classical, .int 1, .int 2⟩] = .ok [.int 1, .int 0] := by
    have e : ([.num (.int 3), .iv ⟨.classical, .int 1, .int 2⟩] : List UArg).mapM (Helper.khi.elem .nearest) =
        .ok [.int 1, .dbl (.fin (1 / 2))] := by
      simp only [List.mapM_cons, List.mapM_nil, Helper.elem, kh]
      rfl
    simp only [Helper.onArray, e, npVectorizeNum]
    rw [if_pos (by norm_num)]
    simp only [List.mapM_cons, List.mapM_nil, toInt64, t4]
    norm_num
    rfl
  refine ⟨fun hs => ?_, hk, ?_⟩
  · obtain ⟨l, h1, _, h2⟩ := hs .khi .nearest [.num (.int 3), .iv ⟨.classical, .int 1, .int 2⟩] (by simp) (by
      intro x hx
      simp only [List.mem_cons, List.not_mem_nil, or_false] at hx
      rcases hx with rfl | rfl
      · exact ⟨_, rfl⟩
      · exact ⟨_, kh⟩)
    rw [hk] at h1
    cases h1
    obtain ⟨v, w, h3, h4, h5⟩ := h2 1 _ rfl
    cases h3
    simp only [Helper.elem, kh] at h4
    cases h4
    simp [Num.val] at h5
  · have w2 : Num.sub .nearest (.dbl (.fin (1 / 2))) (.dbl (.fin (1 / 4))) = .ok (.dbl (.fin (1 / 4))) := by
      show Except.ok (Num.dbl (round .nearest (1 / 2 + -(1 / 4)))) = _
      have hm := two53_le_maxFin
      rw [show (1 / 2 + -(1 / 4) : ℚ) = 1 / 4 by norm_num, isF_le_maxFin_round .nearest
        ⟨1, -2, by norm_num, by norm_num, by norm_num⟩ (by norm_num at hm ⊢; linarith) (by norm_num at hm ⊢; linarith)]
    have e : ([.iv ⟨.classical, .int 1, .int 2⟩, .iv ⟨.classical, .dbl (.fin (1 / 4)), .dbl (.fin (1 / 2))⟩] :
        List UArg).mapM (Helper.wid.elem .nearest) = .ok [.int 1, .dbl (.fin (1 / 4))] := by
      simp only [List.mapM_cons, List.mapM_nil, Helper.elem, FIv.widN, w2]
      rfl
    simp only [Helper.onArray, e, npVectorizeNum]
    rw [if_pos (by norm_num)]
    simp only [List.mapM_cons, List.mapM_nil, toInt64, t5]
    norm_num
    rfl

/-- C96, partial: the helpers are elementwise for `mid`, `rad`, `mag` (any elements), for `khi` on intervals, and for
every helper when the value at the first element is a float and the integer values are at most `2^53`; an empty
argument raises.
Missing: `wid`, `inf`, `sup` and `khi` when the value at the first element is an integer (false). -/
theorem C96_helpers_partial (h : Helper) (m : Mode) (xs : List UArg) (hok : ∀ x ∈ xs, ∃ v, h.elem m x = .ok v) :
    (xs = [] → h.onArray m xs = .error .valueError) ∧
    (xs ≠ [] → (h = .mid ∨ h = .rad ∨ h = .mag ∨ (h = .khi ∧ ∀ x ∈ xs, ∃ X, x = .iv X)) → Elementwise h m xs) ∧
    ((∃ x d, xs.head? = some x ∧ h.elem m x = .ok (.dbl d)) →
      (∀ x ∈ xs, ∀ v, h.elem m x = .ok v → v.IntsLe (2 ^ 53)) → Elementwise h m xs) := by
  refine ⟨?_, fun hne hh => C96_floats h m xs hne hok hh, ?_⟩
  · rintro rfl
    rfl
  · rintro ⟨x, d, hx, hd⟩ hs
    refine elementwise_of hok fun vs hvs => ?_
    obtain ⟨vs', h1, h2, h3⟩ := mapM_get (h.elem m) xs hok
    obtain rfl : vs' = vs := by rw [h1] at hvs; exact Except.ok.inj hvs
    obtain ⟨w, h4, h5⟩ := h3 0 x (by rw [← List.head?_eq_getElem?]; exact hx)
    rw [hd] at h5
    cases h5
    cases vs' with
    | nil => cases h4
    | cons v vs =>
      cases h4
      refine npVectorize_float_first d vs fun y hy => ?_
      obtain ⟨i, hi⟩ := List.mem_iff_getElem?.mp hy
      have hi' : (Num.dbl d :: vs)[i + 1]? = some y := by simpa using hi
      have hlt : i + 1 < xs.length := by
        rw [← h2]
        exact (List.getElem?_eq_some_iff.mp hi').1
      obtain ⟨w, h6, h7⟩ := h3 (i + 1) xs[i + 1] (List.getElem?_eq_getElem hlt)
      rw [hi'] at h6
      cases h6
      exact hs _ (List.getElem_mem hlt) _ h7

example : Elementwise .rad .nearest [.num (.int 3), .iv ⟨.classical, .int 1, .int 2⟩] :=
  (C96_helpers_partial .rad .nearest _ (by
    intro x hx
    simp only [List.mem_cons, List.not_mem_nil, or_false] at hx
    rcases hx with rfl | rfl
    · exact ⟨_, rfl⟩
    · have e : (Num.int (2 - 1)).toDbl = .ok (.fin 1) := by
        have := toDbl_of_small (n := .int 1) (by norm_num [Num.IntsLe])
        simpa [Num.val] using this
      exact ⟨_, half_mul .nearest e⟩)).2.1 (by simp) (Or.inr (Or.inl rfl))

/-! ## C97: the helpers treat a number as a degenerate interval -/

/-- C97 (full statement, false of the code): for a number the helper returns its value at the degenerate interval. -/
def C97_statement : Prop :=
  ∀ (h : Helper) (c : Num) (q : ℚ), c.IsB64 q → 2 * |q| ≤ maxFin →
    ∃ v w, h.elem .nearest (.num c) = .ok v ∧ h.elem .nearest (.iv ⟨.classical, c, c⟩) = .ok w ∧ v.val = w.val

/-- C97, partial: true for `inf`, `sup`, `mid`, `rad` and `mag`, and for `khi` of a nonzero number.
Missing: `wid` (the number itself is returned, right only for zero) and `khi(0)` (the interval raises). -/
theorem C97_numbers_partial (c : Num) (q : ℚ) (hc : c.IsB64 q) (h2 : 2 * |q| ≤ maxFin) (h : Helper) :
    (h ≠ .wid → (h = .khi → q ≠ 0) →
      ∃ v w, h.elem .nearest (.num c) = .ok v ∧ h.elem .nearest (.iv ⟨.classical, c, c⟩) = .ok w ∧ v.val = w.val) ∧
    Helper.wid.elem .nearest (.num c) = .ok (.dbl (.fin q)) ∧
    (∃ w, Helper.wid.elem .nearest (.iv ⟨.classical, c, c⟩) = .ok w ∧ w.val = .fin 0) ∧
    (q = 0 → Helper.khi.elem .nearest (.num c) = .ok (.int 1) ∧
      Helper.khi.elem .nearest (.iv ⟨.classical, c, c⟩) = .error .zeroDivisionError) := by
  have hm0 : (0 : ℚ) ≤ maxFin := le_trans (by norm_num) two53_le_maxFin
  have hfl : c.toDbl.map Num.dbl = .ok (.dbl (.fin q)) := by rw [hc.toDbl]; rfl
  have hfa : c.fabs = .ok (.fin |q|) := by simp only [Num.fabs, hc.toDbl]
  obtain ⟨v1, v2⟩ := mid_rad_values ⟨.classical, c, c⟩ q q hc hc h2 h2
  obtain ⟨s, s1, s2⟩ := sub_near hc hc (by rw [sub_self, abs_zero]; exact hm0)
  have n0 : (nearTo 0 : ℚ) = 0 := nearTo_of_isF isF_zero
  have e1 : (nearTo (1 / 2 * nearTo (q + q)) : ℚ) = q := by
    rw [← two_mul, nearTo_of_isF (isF_double hc.2.1), show (1 / 2 * (2 * q) : ℚ) = q by ring, nearTo_of_isF hc.2.1]
  have e2 : (nearTo (1 / 2 * nearTo (q - q)) : ℚ) = 0 := by
    rw [sub_self, n0, mul_zero, n0]
  rw [e1] at v1
  rw [e2] at v2
  rw [sub_self, n0] at s2
  have hkhi : q ≠ 0 → ∃ w, FIv.khiN .nearest ⟨.classical, c, c⟩ = .ok w ∧ w.val = .fin 1 := by
    intro h0
    have r1 : round .nearest (q / q) = .fin 1 := by
      rw [div_self h0, isF_le_maxFin_round .nearest (by simpa using isF_two_pow 0) (le_trans (by norm_num) two53_le_maxFin)
        (by linarith)]
    refine ⟨.dbl (.fin 1), ?_, rfl⟩
    simp only [FIv.khiN, hfa]
    rw [if_pos (by simp [Dbl.le])]
    cases c with
    | int z =>
      have hz : (z : ℚ) = q := by simpa [Num.val] using hc.1
      have hz0 : z ≠ 0 := by
        rintro rfl
        exact h0 (by rw [← hz]; simp)
      simp only [Num.div]
      rw [if_neg hz0, hz, r1]
      split_ifs <;> rfl
    | dbl d =>
      have hd : d = .fin q := by simpa [Num.val] using hc.1
      subst hd
      show Num.viaDbl (Dbl.div .nearest) (.dbl (.fin q)) (.dbl (.fin q)) = _
      simp only [Num.viaDbl, Num.toDbl]
      show (Dbl.div .nearest (.fin q) (.fin q)).bind (fun x => Except.ok (Num.dbl x)) = _
      simp only [Dbl.div]
      rw [if_neg h0, r1]
      rfl
  refine ⟨fun hw hk => ?_, hfl, ⟨s, s1, ?_⟩, fun h0 => ⟨rfl, ?_⟩⟩
  · cases h with
    | wid => exact absurd rfl hw
    | mid => exact ⟨_, _, hfl, v1, rfl⟩
    | rad => exact ⟨_, _, rfl, v2, rfl⟩
    | inf => exact ⟨_, _, hfl, rfl, hc.1.symm⟩
    | sup => exact ⟨_, _, hfl, rfl, hc.1.symm⟩
    | mag =>
      refine ⟨.dbl (.fin |q|), .dbl (.fin |q|), ?_, ?_, rfl⟩
      · simp only [Helper.elem, hfa]; rfl
      · simp only [Helper.elem, FIv.magN, hfa, Num.max2, ite_self]
    | khi =>
      obtain ⟨w, h1, h3⟩ := hkhi (hk rfl)
      exact ⟨_, w, rfl, h1, by rw [h3]; simp [Num.val]⟩
  · cases s with
    | dbl d => simpa [Num.toDbl, Num.val] using s2
    | int z =>
      cases c with
      | int w => cases s1; simp [Num.val]
      | dbl d =>
        have hd : d = .fin q := by simpa [Num.val] using hc.1
        subst hd
        cases s1
  · subst h0
    simp only [Helper.elem, FIv.khiN, hfa]
    rw [if_pos (by simp [Dbl.le])]
    cases c with
    | int z =>
      have hz : z = 0 := by simpa [Num.val] using hc.1
      subst hz
      rfl
    | dbl d =>
      have hd : d = .fin 0 := by simpa [Num.val] using hc.1
      subst hd
      rfl

/-- C97 is false: `wid(3)` is `3.0`. -/
theorem C97_numbers_false : ¬ C97_statement ∧
    Helper.wid.elem .nearest (.num (.int 3)) = .ok (.dbl (.fin 3)) := by
  have hm := two53_le_maxFin
  have hc : (Num.int 3).IsB64 3 := ⟨by simp [Num.val], by simpa using isF_int (K := ℚ) (z := 3) (by norm_num), by
    rw [abs_of_pos (by norm_num)]; norm_num at hm ⊢; linarith⟩
  have h2 : 2 * |(3 : ℚ)| ≤ maxFin := by rw [abs_of_pos (by norm_num)]; norm_num at hm ⊢; linarith
  obtain ⟨_, h3, ⟨w, h4, h5⟩, _⟩ := C97_numbers_partial (.int 3) 3 hc h2 .wid
  refine ⟨fun hs => ?_, h3⟩
  obtain ⟨v, w', h6, h7, h8⟩ := hs .wid (.int 3) 3 hc h2
  rw [h3] at h6
  cases h6
  rw [h4] at h7
  cases h7
  rw [h5] at h8
  simp [Num.val] at h8

/-- `isnan` answers whether an endpoint is NaN; only integers too large for a float make it raise. -/
theorem C97_isnan (X : FIv) (p q : Dbl) (ha : X.a.toDbl = .ok p) (hb : X.b.toDbl = .ok q) :
    ∃ t, isnanF X = .ok t ∧ (t = true ↔ X.a.val = .nan ∨ X.b.val = .nan) := by
  have key : ∀ (n : Num) (d : Dbl), n.toDbl = .ok d → (n.val = .nan ↔ d = .nan) := by
    intro n d h
    cases n with
    | dbl e => cases h; rfl
    | int z =>
      simp only [Num.toDbl] at h
      constructor
      · intro h'; simp [Num.val] at h'
      · rintro rfl
        split at h <;> cases h
  rw [key _ _ ha, key _ _ hb]
  unfold isnanF
  rw [ha, hb]
  cases p <;> cases q <;> exact ⟨_, rfl, by simp⟩

example : isnanF ⟨.classical, .dbl .nan, .dbl .nan⟩ = .ok true ∧ isnanF ⟨.classical, .int 1, .dbl (.fin 2)⟩ = .ok false := by
  obtain ⟨t, h1, h2⟩ := C97_isnan ⟨.classical, .int 1, .dbl (.fin 2)⟩ (.fin 1) (.fin 2)
    (by have := toDbl_of_small (n := .int 1) (by norm_num [Num.IntsLe]); simpa [Num.val] using this) rfl
  refine ⟨rfl, ?_⟩
  rw [h1]
  cases t
  · rfl
  · simp [Num.val] at h2

/-- C96: `inf(A)` and `sup(A)` of an interval array with float ends are the arrays of the lower and of the upper
ends. -/
theorem C96_ends (m : Mode) (X : FIv) (Xs : List FIv)
    (hf : ∀ Y ∈ X :: Xs, (∃ d, Y.a = .dbl d) ∧ ∃ d, Y.b = .dbl d) :
    Helper.inf.onArray m ((X :: Xs).map .iv) = .ok ((X :: Xs).map FIv.a) ∧
    Helper.sup.onArray m ((X :: Xs).map .iv) = .ok ((X :: Xs).map FIv.b) := by
  have elem : ∀ (h : Helper) (f : FIv → Num), (∀ Y, h.elem m (.iv Y) = .ok (f Y)) → ∀ l : List FIv,
      (l.map UArg.iv).mapM (h.elem m) = .ok (l.map f) := by
    intro h f hh l
    induction l with
    | nil => rfl
    | cons Y l ih =>
      rw [List.map_cons, List.mapM_cons, ih, hh]
      rfl
  have vec : ∀ (f : FIv → Num), (∀ Y ∈ X :: Xs, ∃ d, f Y = .dbl d) →
      npVectorizeNum ((X :: Xs).map f) = .ok ((X :: Xs).map f) := by
    intro f hd
    have all : ∀ l : List FIv, (∀ Y ∈ l, ∃ d, f Y = .dbl d) →
        (l.map f).mapM (fun v => v.toDbl.map Num.dbl) = .ok (l.map f) := by
      intro l hl
      induction l with
      | nil => rfl
      | cons Y l ih =>
        obtain ⟨d, e⟩ := hl Y (by simp)
        rw [List.map_cons, List.mapM_cons, ih fun Z hZ => hl Z (by simp [hZ]), e]
        rfl
    obtain ⟨d, e⟩ := hd X (by simp)
    have := all (X :: Xs) hd
    rw [List.map_cons, e] at this ⊢
    exact this
  constructor
  · rw [Helper.onArray, elem .inf FIv.a fun _ => rfl]
    exact vec FIv.a fun Y hY => (hf Y hY).1
  · rw [Helper.onArray, elem .sup FIv.b fun _ => rfl]
    exact vec FIv.b fun Y hY => (hf Y hY).2

example : Helper.inf.onArray .nearest ([⟨.classical, .dbl (.fin 1), .dbl (.fin 2)⟩,
    ⟨.kaucher, .dbl (.fin 5), .dbl (.fin 3)⟩].map .iv) = .ok [.dbl (.fin 1), .dbl (.fin 5)] := by decide +kernel

end IntvalPy
