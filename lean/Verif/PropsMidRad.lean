import Verif.PropsDistF
import Verif.PropsUtils

/-!
# Midpoint and width of intervals of doubles: exact conditions
-/

set_option autoImplicit false
set_option linter.unusedSectionVars false

namespace IntvalPy
open FIv

theorem isF_two_mul {x : ℚ} (h : IsF x) : IsF (2 * x) := by
  obtain ⟨m, e, hm, he, rfl⟩ := h
  refine ⟨m, e + 1, hm, by omega, ?_⟩
  rw [zpow_add_one₀ (by norm_num)]
  ring

/-- Rounding the sum of two doubles and halving stays between them. -/
theorem half_nearTo_between {p q : ℚ} (hp : IsF p) (hq : IsF q) (hpq : p ≤ q) :
    p ≤ nearTo (1 / 2 * nearTo (q + p)) ∧ nearTo (1 / 2 * nearTo (q + p)) ≤ q := by
  have h1 : 2 * p ≤ nearTo (q + p) := by
    have := nearTo_mono (show 2 * p ≤ q + p by linarith)
    rwa [nearTo_of_isF (isF_two_mul hp)] at this
  have h2 : nearTo (q + p) ≤ 2 * q := by
    have := nearTo_mono (show q + p ≤ 2 * q by linarith)
    rwa [nearTo_of_isF (isF_two_mul hq)] at this
  constructor
  · have := nearTo_mono (show p ≤ 1 / 2 * nearTo (q + p) by linarith)
    rwa [nearTo_of_isF hp] at this
  · have := nearTo_mono (show 1 / 2 * nearTo (q + p) ≤ q by linarith)
    rwa [nearTo_of_isF hq] at this

theorem midN_dbl (m : Mode) (c : Cls) (x y : Dbl) :
    FIv.midN m ⟨c, .dbl x, .dbl y⟩ = .ok (.dbl (Dbl.mul m (.fin (1 / 2)) (Dbl.add m y x))) := rfl

theorem widN_dbl (m : Mode) (c : Cls) (x y : Dbl) :
    FIv.widN m ⟨c, .dbl x, .dbl y⟩ = .ok (.dbl (Dbl.sub m y x)) := rfl

theorem radN_dbl (m : Mode) (c : Cls) (x y : Dbl) :
    FIv.radN m ⟨c, .dbl x, .dbl y⟩ = .ok (.dbl (Dbl.mul m (.fin (1 / 2)) (Dbl.sub m y x))) := rfl

/-- In the default rounding mode the midpoint of an interval of finite doubles lies in the interval exactly if the sum of
the endpoints does not overflow; otherwise the midpoint is infinite. -/
theorem C94_nearest_iff (c : Cls) (p q : ℚ) (hp : IsF p) (hq : IsF q) (hpm : |p| ≤ maxFin) (hqm : |q| ≤ maxFin)
    (hpq : p ≤ q) :
    ((∃ t, FIv.midN .nearest ⟨c, .dbl (.fin p), .dbl (.fin q)⟩ = .ok (.dbl (.fin t)) ∧ p ≤ t ∧ t ≤ q) ↔
      |(nearTo (p + q) : ℚ)| ≤ maxFin) ∧
    (maxFin < (nearTo (p + q) : ℚ) → FIv.midN .nearest ⟨c, .dbl (.fin p), .dbl (.fin q)⟩ = .ok (.dbl .pinf)) ∧
    ((nearTo (p + q) : ℚ) < -maxFin → FIv.midN .nearest ⟨c, .dbl (.fin p), .dbl (.fin q)⟩ = .ok (.dbl .ninf)) := by
  have hb := half_nearTo_between hp hq hpq
  rw [add_comm q p] at hb
  have hM := maxFin_pos
  have hpos : maxFin < (nearTo (p + q) : ℚ) → FIv.midN .nearest ⟨c, .dbl (.fin p), .dbl (.fin q)⟩ = .ok (.dbl .pinf) := by
    intro h
    rw [midN_dbl]
    have : Dbl.add .nearest (.fin q) (.fin p) = .pinf := by
      simp only [Dbl.add, round]
      rw [add_comm q p, if_pos h]
    rw [this]
    simp [Dbl.mul, Dbl.infTimes]
  have hneg : (nearTo (p + q) : ℚ) < -maxFin → FIv.midN .nearest ⟨c, .dbl (.fin p), .dbl (.fin q)⟩ = .ok (.dbl .ninf) := by
    intro h
    rw [midN_dbl]
    have : Dbl.add .nearest (.fin q) (.fin p) = .ninf := by
      simp only [Dbl.add, round]
      rw [add_comm q p, if_neg (by linarith), if_pos h]
    rw [this]
    simp [Dbl.mul, Dbl.infTimes]
  refine ⟨⟨?_, ?_⟩, hpos, hneg⟩
  · rintro ⟨t, ht, -, -⟩
    rw [abs_le]
    constructor
    · by_contra h
      rw [hneg (not_le.mp h)] at ht
      cases ht
    · by_contra h
      rw [hpos (not_le.mp h)] at ht
      cases ht
  · intro h
    have h' := abs_le.mp h
    refine ⟨nearTo (1 / 2 * nearTo (p + q)), ?_, hb⟩
    rw [midN_dbl]
    have e1 : Dbl.add .nearest (.fin q) (.fin p) = .fin (nearTo (p + q)) := by
      simp only [Dbl.add, round]
      rw [add_comm q p, if_neg (by linarith), if_neg (by linarith)]
    rw [e1]
    show Except.ok (Num.dbl (round .nearest _)) = _
    rw [round_near]
    have hpm' := abs_le.mp hpm
    rw [abs_mul, abs_of_pos (by norm_num : (0 : ℚ) < 1 / 2)]
    linarith

/-- Infinite endpoints: the midpoint of a half-line is its infinite end, that of the whole line is NaN; in any mode. -/
theorem C94_infinite (m : Mode) (c : Cls) (p : ℚ) :
    FIv.midN m ⟨c, .dbl .ninf, .dbl .pinf⟩ = .ok (.dbl .nan) ∧
    FIv.midN m ⟨c, .dbl (.fin p), .dbl .pinf⟩ = .ok (.dbl .pinf) ∧
    FIv.midN m ⟨c, .dbl .ninf, .dbl (.fin p)⟩ = .ok (.dbl .ninf) := by
  simp [midN_dbl, Dbl.add, Dbl.mul, Dbl.infTimes]

/-- Width and radius of an interval of doubles in the default mode are the exact ones, each rounded to nearest once; the
width is zero exactly for a degenerate interval. -/
theorem C95_width (c : Cls) (p q : ℚ) (hp : IsF p) (hq : IsF q) (hpq : p ≤ q) :
    (FIv.widN .nearest ⟨c, .dbl (.fin p), .dbl (.fin q)⟩ = .ok (.dbl (round .nearest (q - p)))) ∧
    (q - p ≤ maxFin → FIv.radN .nearest ⟨c, .dbl (.fin p), .dbl (.fin q)⟩ = .ok (.dbl (.fin (nearTo ((q - p) / 2))))) ∧
    (maxFin < (nearTo (q - p) : ℚ) → FIv.radN .nearest ⟨c, .dbl (.fin p), .dbl (.fin q)⟩ = .ok (.dbl .pinf)) ∧
    (FIv.widN .nearest ⟨c, .dbl (.fin p), .dbl (.fin q)⟩ = .ok (.dbl (.fin 0)) ↔ p = q) := by
  have hM := maxFin_pos
  have e : Dbl.sub .nearest (.fin q) (.fin p) = round .nearest (q - p) := by
    simp only [Dbl.sub, Dbl.neg, Dbl.add, sub_eq_add_neg]
  have h0 : 0 ≤ q - p := by linarith
  have hn : (0 : ℚ) ≤ nearTo (q - p) := by
    have := nearTo_mono h0
    rwa [nearTo_of_isF isF_zero] at this
  refine ⟨by rw [widN_dbl, e], ?_, ?_, ?_⟩
  · intro h
    have ha : |q - p| ≤ maxFin := by rwa [abs_of_nonneg h0]
    have hnm : (nearTo (q - p) : ℚ) ≤ maxFin := by
      have := nearTo_mono h
      rwa [nearTo_of_isF isF_maxFin] at this
    rw [radN_dbl, e, round_near ha]
    show Except.ok (Num.dbl (round .nearest _)) = _
    rw [round_near, nearTo_half (sub_grid hq hp)]
    rw [abs_of_nonneg (by linarith)]
    linarith
  · intro h
    have : round .nearest (q - p) = .pinf := by
      simp only [round]
      rw [if_pos h]
    rw [radN_dbl, e, this]
    simp [Dbl.mul, Dbl.infTimes]
  · rw [widN_dbl, e]
    constructor
    · intro h
      have h1 : (nearTo (q - p) : ℚ) = 0 := by
        simp only [round] at h
        split_ifs at h <;> simp at h
        exact h
      have hr := nearTo_grid_rel (sub_grid hq hp)
      rw [h1, zero_sub, abs_neg, abs_of_nonneg h0] at hr
      have : (2 : ℚ) ^ (-53 : ℤ) < 1 := by norm_num
      generalize (2 : ℚ) ^ (-53 : ℤ) = w at *
      by_contra hne
      have : 0 < q - p := lt_of_le_of_ne h0 (fun h => hne (by linarith))
      nlinarith
    · rintro rfl
      rw [sub_self, round_near (by rw [abs_zero]; exact hM.le), nearTo_of_isF isF_zero]

/-- Nonvacuity: `[1, DBL_MAX]`, where the sum rounds to `DBL_MAX` and the midpoint is fine, beyond the bound of
`C94_midpoint_partial`. -/
example : ∃ t, FIv.midN .nearest ⟨.classical, .dbl (.fin 1), .dbl (.fin maxFin)⟩ = .ok (.dbl (.fin t)) ∧ 1 ≤ t ∧
    t ≤ maxFin ∧ IsF (1 : ℚ) ∧ IsF (maxFin : ℚ) := by
  have h1 : IsF (1 : ℚ) := ⟨1, 0, by norm_num, by norm_num, by norm_num⟩
  obtain ⟨t, ht, h⟩ := (C94_nearest_iff .classical 1 maxFin h1 isF_maxFin (by decide +kernel)
    (by rw [abs_of_pos maxFin_pos]) (by decide +kernel)).1.mpr (by decide +kernel)
  exact ⟨t, ht, h.1, h.2, h1, isF_maxFin⟩

/-- The width of `[1, 1 + 2^-52]`. -/
example : FIv.widN .nearest ⟨.classical, .dbl (.fin 1), .dbl (.fin (1 + 2 ^ (-52 : ℤ)))⟩ =
    .ok (.dbl (.fin (2 ^ (-52 : ℤ)))) := by decide +kernel

end IntvalPy
