import Verif.SpecElem
import Mathlib.Analysis.SpecialFunctions.Trigonometric.Bounds
import Mathlib.Analysis.Real.Pi.Bounds

/-!
# Helper facts for the elementary functions: rounding errors, neighbours, extrema of the cosine
-/

set_option autoImplicit false
set_option linter.unusedSectionVars false

namespace IntvalPy


section
variable {K : Type*} [Field K] [LinearOrder K] [IsStrictOrderedRing K] [FloorRing K]

theorem ulp_le {x : K} {n : ℤ} (hx : x ≠ 0) (h : |x| < 2 ^ (n + 1)) (hn : -1022 ≤ n) :
    ulp x ≤ 2 ^ (n - 52) := by
  unfold ulp ulpExp
  apply zpow_le_zpow_right₀ (by norm_num)
  have hlog : Int.log 2 |x| < n + 1 := by
    rw [Int.lt_zpow_iff_log_lt (by norm_num) (abs_pos.mpr hx) |>.symm]
    exact_mod_cast h
  omega

theorem floorTo_err {x : K} {n : ℤ} (h : |x| < 2 ^ (n + 1)) (hn : -1022 ≤ n) :
    x - floorTo x ≤ 2 ^ (n - 52) := by
  by_cases hx : x = 0
  · subst hx; rw [floorTo_of_isF isF_zero, sub_zero]; exact (two_zpow_pos _).le
  · refine le_trans ?_ (ulp_le hx h hn)
    unfold floorTo
    have h1 := Int.lt_floor_add_one (x / ulp x)
    have u := ulp_pos x
    rw [div_lt_iff₀ u] at h1
    nlinarith

theorem ceilTo_err {x : K} {n : ℤ} (h : |x| < 2 ^ (n + 1)) (hn : -1022 ≤ n) :
    ceilTo x - x ≤ 2 ^ (n - 52) := by
  rw [ceilTo_eq]
  have := floorTo_err (x := -x) (n := n) (by rwa [abs_neg]) hn
  linarith

end

/-- Rounding a number of moderate size: finite, with the usual error bound. -/
theorem round_small (m : Mode) {x : ℚ} {n : ℤ} (h : |x| < 2 ^ (n + 1)) (hn : -1022 ≤ n) (hn' : n ≤ 51) :
    ∃ r, round m x = .fin r ∧ |r - x| ≤ 2 ^ (n - 52) ∧ IsF r := by
  have hx : |x| < 2 ^ 52 := h.trans_le (by
    have : (2 : ℚ) ^ (n + 1) ≤ 2 ^ (52 : ℤ) := zpow_le_zpow_right₀ (by norm_num) (by omega)
    exact_mod_cast this)
  have hM := two53_le_maxFin
  have hf := floorTo_le x
  have hc := le_ceilTo x
  have hf' := floorTo_err h hn
  have hc' := ceilTo_err h hn
  have hu : (2 : ℚ) ^ (n - 52) ≤ 1 := by
    have : (2 : ℚ) ^ (n - 52) ≤ 2 ^ (0 : ℤ) := zpow_le_zpow_right₀ (by norm_num) (by omega)
    simpa using this
  have hpos : (0 : ℚ) < 2 ^ (n - 52) := two_zpow_pos _
  rw [abs_lt] at hx
  generalize (2 : ℚ) ^ (n - 52) = u at *
  have hM' : (2 : ℚ) ^ 52 + 1 ≤ maxFin := le_trans (by norm_num) hM
  have ef : round .down x = .fin (floorTo x) := by
    simp only [round]; rw [if_neg (by linarith), if_neg (by linarith)]
  have ec : round .up x = .fin (ceilTo x) := by
    simp only [round]; rw [if_neg (by linarith), if_neg (by linarith)]
  have bf : |floorTo x - x| ≤ u := by rw [abs_le]; constructor <;> linarith
  have bc : |ceilTo x - x| ≤ u := by rw [abs_le]; constructor <;> linarith
  cases m with
  | down => exact ⟨_, ef, bf, floorTo_isF x⟩
  | up => exact ⟨_, ec, bc, ceilTo_isF x⟩
  | nearest =>
    have h1 := floorTo_le_nearTo x
    have h2 := nearTo_le_ceilTo x
    refine ⟨nearTo x, ?_, ?_, nearTo_isF x⟩
    · simp only [round]; rw [if_neg (by linarith), if_neg (by linarith)]
    · rcases nearTo_choice x with e | e <;> rw [e] <;> assumption
  | zero =>
    simp only [round]
    split_ifs with h0 h1 h1
    · exact absurd h1 (by linarith)
    · exact ⟨_, rfl, bf, floorTo_isF x⟩
    · exact absurd h1 (by linarith)
    · exact ⟨_, rfl, bc, ceilTo_isF x⟩

/-! ## Neighbours -/

theorem tinyQ_pos : 0 < tinyQ := two_zpow_pos _

theorem tinyQ_lt : tinyQ < 2 ^ (-60 : ℤ) := by
  unfold tinyQ; exact zpow_lt_zpow_right₀ (by norm_num) (by norm_num)

theorem one_lt_maxFin : (2 : ℚ) < maxFin := lt_of_lt_of_le (by norm_num) two53_le_maxFin

theorem nextUp_small {y : ℚ} (h : |y| ≤ 1) : nextUp (.fin y) = .fin (ceilTo (y + tinyQ)) := by
  have := one_lt_maxFin
  rw [abs_le] at h
  simp only [nextUp]; rw [if_neg (by linarith)]

theorem nextDown_small {y : ℚ} (h : |y| ≤ 1) : nextDown (.fin y) = .fin (floorTo (y - tinyQ)) := by
  have := one_lt_maxFin
  rw [abs_le] at h
  simp only [nextDown]; rw [if_neg (by linarith)]

theorem tiny_half : tinyQ ≤ 1 / 2 := tinyQ_lt.le.trans (by norm_num)

theorem nu_le {y : ℚ} (h : |y| ≤ 1) : ceilTo (y + tinyQ) ≤ y + 2 ^ (-51 : ℤ) := by
  have h1 := tinyQ_pos
  have h2 := tinyQ_lt
  have h3 := tiny_half
  rw [abs_le] at h
  have := ceilTo_err (x := y + tinyQ) (n := 0) (by rw [abs_lt]; constructor <;> norm_num <;> linarith)
    (by norm_num)
  norm_num at this h2 ⊢
  linarith

theorem nd_ge {y : ℚ} (h : |y| ≤ 1) : y - 2 ^ (-51 : ℤ) ≤ floorTo (y - tinyQ) := by
  have := nu_le (y := -y) (by rwa [abs_neg])
  have e : -y + tinyQ = -(y - tinyQ) := by ring
  rw [e, ceilTo_eq, neg_neg] at this
  linarith

/-- The double `1` is the next one after `1 - 2^-53`: a double above `1 - 2^-56` is at least one. -/
theorem isF_ge_one {f : ℚ} (hf : IsF f) (h : 1 - 2 ^ (-56 : ℤ) ≤ f) : 1 ≤ f := by
  by_contra hlt
  rw [not_le] at hlt
  obtain ⟨m, e, hm, he, rfl⟩ := hf
  have hp := two_zpow_pos (K := ℚ) e
  have hpos : (0 : ℚ) < m * 2 ^ e := lt_of_lt_of_le (by norm_num) h
  have hm0 : (0 : ℚ) < m := pos_of_mul_pos_left hpos hp.le
  have hm1 : (m : ℚ) < 2 ^ 53 := by
    have := (abs_lt.mp hm).2; exact_mod_cast this
  -- the exponent lies between -53 and -1
  have he1 : e < 0 := by
    by_contra hge
    rw [not_lt] at hge
    have h1 : (1 : ℚ) ≤ 2 ^ e := one_le_zpow₀ (by norm_num) hge
    have h2 : (1 : ℚ) ≤ m := by
      have : (0 : ℤ) < m := by exact_mod_cast hm0
      exact_mod_cast this
    nlinarith
  have he2 : -54 < e := by
    by_contra hle
    rw [not_lt] at hle
    have h1 : (2 : ℚ) ^ e ≤ 2 ^ (-54 : ℤ) := zpow_le_zpow_right₀ (by norm_num) hle
    have : (m : ℚ) * 2 ^ e ≤ 2 ^ 53 * 2 ^ (-54 : ℤ) :=
      mul_le_mul hm1.le h1 hp.le (by norm_num)
    norm_num at this h
    linarith
  obtain ⟨j, hj⟩ : ∃ j : ℕ, e = -(j : ℤ) := ⟨(-e).toNat, by omega⟩
  have hj53 : j ≤ 53 := by omega
  have e1 : (2 : ℚ) ^ e = 1 / 2 ^ j := by rw [hj, zpow_neg, zpow_natCast, one_div]
  rw [e1] at h hlt
  have h2j : (0 : ℚ) < 2 ^ j := by positivity
  rw [mul_one_div, div_lt_one h2j] at hlt
  rw [mul_one_div, le_div_iff₀ h2j] at h
  have hml : m ≤ 2 ^ j - 1 := by
    have : m < 2 ^ j := by exact_mod_cast hlt
    omega
  have hml' : (m : ℚ) ≤ 2 ^ j - 1 := by exact_mod_cast hml
  have hjb : (2 : ℚ) ^ j ≤ 2 ^ 53 := pow_le_pow_right₀ (by norm_num) hj53
  norm_num at h
  norm_num at hjb
  linarith

/-! ## Maxima of the cosine -/

open Real in
/-- Between two consecutive maxima the cosine is largest at the ends of any subinterval. -/
theorem cos_le_max_of_no_max {s a b x : ℝ} (hax : a ≤ x) (hxb : x ≤ b)
    (h : ¬ ∃ k : ℤ, a ≤ k * (2 * π) - s ∧ k * (2 * π) - s ≤ b) :
    cos (x + s) ≤ max (cos (a + s)) (cos (b + s)) := by
  have hp := pi_pos
  -- the last maximum before `a`
  set k : ℤ := ⌊(a + s) / (2 * π)⌋ with hk
  have h2p : 0 < 2 * π := by positivity
  have k1 : (k : ℝ) * (2 * π) ≤ a + s := by
    rw [← le_div_iff₀ h2p]; exact Int.floor_le _
  have k2 : a + s < (k + 1 : ℝ) * (2 * π) := by
    rw [← div_lt_iff₀ h2p]; exact Int.lt_floor_add_one _
  have k3 : b + s < (k + 1 : ℝ) * (2 * π) := by
    by_contra hb
    rw [not_lt] at hb
    exact h ⟨k + 1, by push_cast; linarith, by push_cast; linarith⟩
  -- centre of the gap
  have e : ∀ t : ℝ, cos (t + s) = -cos |t + s - (k * (2 * π) + π)| := by
    intro t
    rw [cos_abs, cos_sub, cos_add (k * (2 * π)) π, sin_add (k * (2 * π)) π]
    have c1 : cos ((k : ℝ) * (2 * π)) = 1 := cos_int_mul_two_pi k
    have c2 : sin ((k : ℝ) * (2 * π)) = 0 := by
      have : (k : ℝ) * (2 * π) = ((2 * k : ℤ) : ℝ) * π := by push_cast; ring
      rw [this]; exact sin_int_mul_pi _
    rw [c1, c2, cos_pi, sin_pi]; ring
  rw [e x, e a, e b]
  have mono : ∀ u v : ℝ, 0 ≤ u → v ≤ π → u ≤ v → -cos u ≤ -cos v := fun u v h1 h2 h3 =>
    neg_le_neg (cos_le_cos_of_nonneg_of_le_pi h1 h2 h3)
  have ba : |a + s - (k * (2 * π) + π)| ≤ π := by rw [abs_le]; constructor <;> linarith
  have bb : |b + s - (k * (2 * π) + π)| ≤ π := by
    rw [abs_le]; constructor <;> linarith
  rcases le_total 0 (x + s - (k * (2 * π) + π)) with hx | hx
  · refine le_trans (mono _ _ (abs_nonneg _) bb ?_) (le_max_right _ _)
    rw [abs_of_nonneg hx]
    exact le_trans (by linarith) (le_abs_self _)
  · refine le_trans (mono _ _ (abs_nonneg _) ba ?_) (le_max_left _ _)
    rw [abs_of_nonpos hx]
    exact le_trans (by linarith) (neg_le_abs _)

open Real in
/-- Close to a maximum the cosine is close to one. -/
theorem cos_near_max {s x δ : ℝ} {k : ℤ} (h : |x - (k * (2 * π) - s)| ≤ δ) :
    1 - δ ^ 2 / 2 ≤ cos (x + s) := by
  have e : cos (x + s) = cos (x - (k * (2 * π) - s)) := by
    have : x - (k * (2 * π) - s) = x + s - k * (2 * π) := by ring
    rw [this, cos_sub_int_mul_two_pi]
  rw [e]
  have h1 := one_sub_sq_div_two_le_cos (x := x - (k * (2 * π) - s))
  have h2 : (x - (k * (2 * π) - s)) ^ 2 ≤ δ ^ 2 := by
    rw [← sq_abs]; exact pow_le_pow_left₀ (abs_nonneg _) h 2
  linarith

end IntvalPy
