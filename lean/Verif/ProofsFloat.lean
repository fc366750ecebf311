import Verif.ModelFloat
import Mathlib.Tactic.Linarith
import Mathlib.Tactic.Positivity
import Mathlib.Tactic.NormNum
import Mathlib.Tactic.FieldSimp
import Mathlib.Tactic.Ring

/-!
# The 53-bit rounding functions have the IEEE properties
-/

set_option autoImplicit false
set_option linter.unusedSectionVars false

namespace IntvalPy

variable {K : Type*} [Field K] [LinearOrder K] [IsStrictOrderedRing K] [FloorRing K]

/-- Numbers with at most 53 significant bits above the subnormal spacing (no upper exponent bound). -/
def IsF (x : K) : Prop := ∃ m e : ℤ, |m| < 2 ^ 53 ∧ -1074 ≤ e ∧ x = (m : K) * 2 ^ e

theorem isF_zero : IsF (0 : K) := ⟨0, 0, by norm_num, by norm_num, by simp⟩

theorem IsF.neg {x : K} (h : IsF x) : IsF (-x) := by
  obtain ⟨m, e, h1, h2, h3⟩ := h
  exact ⟨-m, e, by simpa using h1, h2, by rw [h3]; push_cast; ring⟩

theorem two_zpow_pos (e : ℤ) : (0 : K) < 2 ^ e := zpow_pos (by norm_num) e

theorem ulp_pos (x : K) : 0 < ulp x := two_zpow_pos _

theorem isF_of_int {m e : ℤ} (hm : |m| ≤ 2 ^ 53) (he : -1074 ≤ e) : IsF ((m : K) * 2 ^ e) := by
  rcases lt_or_eq_of_le hm with h | h
  · exact ⟨m, e, h, he, rfl⟩
  · have h2 : (2 : K) ≠ 0 := by norm_num
    rcases abs_choice m with hc | hc
    · have hm : m = 2 ^ 53 := by rw [← hc, h]
      refine ⟨2 ^ 52, e + 1, by norm_num, by omega, ?_⟩
      rw [hm, zpow_add₀ h2]; push_cast; ring
    · have hm : m = -2 ^ 53 := by rw [hc] at h; omega
      refine ⟨-2 ^ 52, e + 1, by norm_num, by omega, ?_⟩
      rw [hm, zpow_add₀ h2]; push_cast; ring

theorem abs_lt_ulp (x : K) : |x| < 2 ^ 53 * ulp x := by
  by_cases hx : x = 0
  · subst hx; simpa using ulp_pos (0 : K)
  have h := Int.lt_zpow_succ_log_self (b := 2) (by norm_num) |x|
  refine h.trans_le ?_
  have h2 : (2 : K) ≠ 0 := by norm_num
  have e : (2 : K) ^ 53 * ulp x = 2 ^ (53 + ulpExp x) := by
    rw [zpow_add₀ h2, ulp]; norm_num
  rw [e]
  push_cast
  apply zpow_le_zpow_right₀ (by norm_num)
  unfold ulpExp; omega

theorem floorTo_le (x : K) : floorTo x ≤ x := by
  unfold floorTo
  have := Int.floor_le (x / ulp x)
  calc (⌊x / ulp x⌋ : K) * ulp x ≤ x / ulp x * ulp x := mul_le_mul_of_nonneg_right this (ulp_pos x).le
    _ = x := by field_simp [(ulp_pos x).ne']

theorem floorTo_isF (x : K) : IsF (floorTo x) := by
  unfold floorTo ulp
  refine isF_of_int ?_ (le_max_left _ _)
  have h := abs_lt_ulp x
  have hs : |x / ulp x| < 2 ^ 53 := by
    rw [abs_div, abs_of_pos (ulp_pos x), div_lt_iff₀ (ulp_pos x)]; exact h
  rw [abs_lt] at hs
  have e : x / ulp x = x / 2 ^ ulpExp x := rfl
  rw [← e, abs_le]
  constructor
  · rw [Int.le_floor]; push_cast; linarith [hs.1]
  · have : ⌊x / ulp x⌋ < 2 ^ 53 := by rw [Int.floor_lt]; push_cast; norm_num at hs ⊢; exact hs.2
    exact this.le

/-- `floorTo x` is the greatest representable number below `x`. -/
theorem le_floorTo {x f : K} (hf : IsF f) (h : f ≤ x) : f ≤ floorTo x := by
  obtain ⟨m, k, hm, hk, rfl⟩ := hf
  have h2 : (2 : K) ≠ 0 := by norm_num
  have u := ulp_pos x
  by_cases hx0 : x = 0
  · subst hx0; simpa [floorTo] using h
  -- f is a multiple of the unit in the last place, or small
  by_cases hke : ulpExp x ≤ k
  · obtain ⟨j, hj⟩ : ∃ j : ℕ, k = ulpExp x + j := ⟨(k - ulpExp x).toNat, by omega⟩
    have e : (m : K) * 2 ^ k = ((m * 2 ^ j : ℤ) : K) * ulp x := by
      rw [hj, zpow_add₀ h2, ulp]; push_cast; rw [zpow_natCast]; ring
    rw [e] at h ⊢
    unfold floorTo
    apply mul_le_mul_of_nonneg_right _ u.le
    have : m * 2 ^ j ≤ ⌊x / ulp x⌋ := by
      rw [Int.le_floor, le_div_iff₀ u]; exact h
    exact_mod_cast this
  · have hke := not_le.mp hke
    have hlog : ulpExp x = Int.log 2 |x| - 52 := by
      have : ulpExp x = max (-1074) (Int.log 2 |x| - 52) := rfl
      omega
    have hbig : 2 ^ 52 * ulp x ≤ |x| := by
      have := Int.zpow_log_le_self (b := 2) (by norm_num) (abs_pos.mpr hx0)
      refine le_trans (le_of_eq ?_) this
      have e : Int.log 2 |x| = 52 + ulpExp x := by omega
      rw [e]
      push_cast
      rw [zpow_add₀ h2, ulp]; norm_num
    have hfs : |(m : K) * 2 ^ k| < 2 ^ 52 * ulp x := by
      rw [abs_mul, abs_of_pos (two_zpow_pos (K := K) k)]
      have hm' : |(m : K)| < 2 ^ 53 := by exact_mod_cast hm
      have h1 : (2 : K) ^ k * 2 ≤ ulp x := by
        rw [ulp, ← zpow_add_one₀ h2]
        exact zpow_le_zpow_right₀ (by norm_num) (by omega)
      have h3 := two_zpow_pos (K := K) k
      calc |(m : K)| * 2 ^ k < 2 ^ 53 * 2 ^ k := mul_lt_mul_of_pos_right hm' h3
        _ = 2 ^ 52 * (2 ^ k * 2) := by ring
        _ ≤ 2 ^ 52 * ulp x := by apply mul_le_mul_of_nonneg_left h1; positivity
    rcases lt_or_gt_of_ne hx0 with hneg | hpos
    · exfalso
      rw [abs_of_neg hneg] at hbig
      have := neg_abs_le ((m : K) * 2 ^ k)
      have h4 : |(m : K) * 2 ^ k| = -((m : K) * 2 ^ k) := abs_of_neg (h.trans_lt hneg)
      linarith
    · rw [abs_of_pos hpos] at hbig
      refine (le_abs_self _).trans (hfs.le.trans ?_)
      unfold floorTo
      apply mul_le_mul_of_nonneg_right _ u.le
      have : (2 ^ 52 : ℤ) ≤ ⌊x / ulp x⌋ := by
        rw [Int.le_floor, le_div_iff₀ u]; norm_num at hbig ⊢; exact hbig
      exact_mod_cast this

theorem ulp_neg (x : K) : ulp (-x) = ulp x := by simp [ulp, ulpExp]

theorem ceilTo_eq (x : K) : ceilTo x = -floorTo (-x) := by
  unfold ceilTo floorTo
  rw [ulp_neg, neg_div, Int.floor_neg]; push_cast; ring

theorem le_ceilTo (x : K) : x ≤ ceilTo x := by
  rw [ceilTo_eq]; linarith [floorTo_le (-x)]

theorem ceilTo_isF (x : K) : IsF (ceilTo x) := by
  rw [ceilTo_eq]; exact (floorTo_isF _).neg

theorem ceilTo_le {x f : K} (hf : IsF f) (h : x ≤ f) : ceilTo x ≤ f := by
  rw [ceilTo_eq]
  have := le_floorTo hf.neg (neg_le_neg h)
  linarith

theorem floorTo_mono : Monotone (floorTo : K → K) := fun x _ h =>
  le_floorTo (floorTo_isF x) ((floorTo_le x).trans h)

theorem ceilTo_mono : Monotone (ceilTo : K → K) := fun _ y h =>
  ceilTo_le (ceilTo_isF y) (h.trans (le_ceilTo y))

theorem floorTo_of_isF {x : K} (h : IsF x) : floorTo x = x :=
  le_antisymm (floorTo_le x) (le_floorTo h (le_refl _))

theorem ceilTo_of_isF {x : K} (h : IsF x) : ceilTo x = x :=
  le_antisymm (ceilTo_le h (le_refl _)) (le_ceilTo x)

theorem nearInt_choice (s : K) : nearInt s = ⌊s⌋ ∨ nearInt s = ⌈s⌉ := by
  unfold nearInt
  have key : s - ⌊s⌋ ≠ 0 → ⌈s⌉ = ⌊s⌋ + 1 := by
    intro h
    rw [Int.ceil_eq_iff]
    push_cast
    have h1 := Int.floor_le s
    have h2 := Int.lt_floor_add_one s
    refine ⟨?_, h2.le⟩
    have : (⌊s⌋ : K) ≠ s := fun h' => h (by rw [h', sub_self])
    have := lt_of_le_of_ne h1 this
    linarith
  dsimp only
  split_ifs with h1 h2 h3
  · exact Or.inl rfl
  · exact Or.inr (key (by intro h; rw [h] at h2; norm_num at h2)).symm
  · exact Or.inl rfl
  · exact Or.inr (key (by intro h; rw [h] at h1; norm_num at h1)).symm

theorem nearTo_choice (x : K) : nearTo x = floorTo x ∨ nearTo x = ceilTo x := by
  unfold nearTo floorTo ceilTo
  rcases nearInt_choice (x / ulp x) with h | h
  · left; rw [h]
  · right; rw [h]

theorem floorTo_le_nearTo (x : K) : floorTo x ≤ nearTo x := by
  rcases nearTo_choice x with h | h
  · rw [h]
  · rw [h]; exact (floorTo_le x).trans (le_ceilTo x)

theorem nearTo_le_ceilTo (x : K) : nearTo x ≤ ceilTo x := by
  rcases nearTo_choice x with h | h
  · rw [h]; exact (floorTo_le x).trans (le_ceilTo x)
  · rw [h]

theorem nearTo_isF (x : K) : IsF (nearTo x) := by
  rcases nearTo_choice x with h | h
  · rw [h]; exact floorTo_isF x
  · rw [h]; exact ceilTo_isF x

theorem nearTo_of_isF {x : K} (h : IsF x) : nearTo x = x := by
  rcases nearTo_choice x with e | e
  · rw [e, floorTo_of_isF h]
  · rw [e, ceilTo_of_isF h]

/-- IEEE binary64 rounding without the upper exponent bound, as an instance of the rounding interface
used by the L2 model: every L2 theorem stated "for all roundings" holds in particular for it. -/
def Rnd.b64 : Rnd K where
  dn := floorTo
  up := ceilTo
  nr := nearTo
  dn_le := floorTo_le
  le_up := le_ceilTo
  dn_mono := floorTo_mono
  up_mono := ceilTo_mono
  dn_le_nr := floorTo_le_nearTo
  nr_le_up := nearTo_le_ceilTo
  dn_zero := floorTo_of_isF isF_zero
  up_zero := ceilTo_of_isF isF_zero

/-- Integers up to `2^53` are representable. -/
theorem isF_int {z : ℤ} (h : |z| ≤ 2 ^ 53) : IsF (z : K) := by
  have := isF_of_int (K := K) (e := 0) h (by norm_num)
  simpa using this

theorem isF_maxFin : IsF (maxFin : K) := by
  refine ⟨2 ^ 53 - 1, 971, by norm_num, by norm_num, ?_⟩
  unfold maxFin; norm_num

end IntvalPy
