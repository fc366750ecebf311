import Verif.PropsKaucher
import Verif.ProofsFloat
import Verif.ProofsElem

/-!
# Rounding of the Kaucher product (C62)
-/

set_option autoImplicit false
set_option linter.unusedSectionVars false

namespace IntvalPy
open Iv Spec

variable {K : Type*} [Field K] [LinearOrder K] [IsStrictOrderedRing K]

/-- C62, full statement: the product of two proper intervals of the Kaucher class encloses the products of
their members, like the product of two classical ones does. -/
def C62_statement (R : Rnd K) : Prop :=
  ∀ X Y : Iv K, X.cls = .kaucher → Y.cls = .kaucher → Proper X → Proper Y →
    Encloses (mul R X Y) fun t => ∃ x ∈ X, ∃ y ∈ Y, t = x * y

/-- C62 is false for IEEE double rounding: with `t = 1 + 2^-52`, the product of the Kaucher intervals
`[-t, -t]` and `[t, t]` has lower bound `-(1 + 2^-51)`, above `-t²`: the subtracted product is rounded down
although it enters with a minus sign. -/
theorem C62_kaucher_mul_encloses_false : ¬ C62_statement (Rnd.b64 : Rnd ℚ) := by
  intro h
  let t : ℚ := 1 + 2 ^ (-52 : ℤ)
  have ht : (0 : ℚ) < t := by norm_num [t]
  have := (h ⟨.kaucher, -t, -t⟩ ⟨.kaucher, t, t⟩ rfl rfl le_rfl le_rfl (-t * t)
    ⟨-t, ⟨le_rfl, le_rfl⟩, t, ⟨le_rfl, le_rfl⟩, rfl⟩).1
  have hlog : ulpExp (t * t) = -52 := by
    have hx : 0 < |t * t| := by positivity
    have e : |t * t| = t * t := abs_of_pos (by positivity)
    have a1 : 0 ≤ Int.log 2 |t * t| := (Int.zpow_le_iff_le_log (b := 2) (by norm_num) hx).mp (by
      rw [e]; norm_num [t])
    have a2 : Int.log 2 |t * t| < 1 := (Int.lt_zpow_iff_log_lt (b := 2) (by norm_num) hx).mp (by
      rw [e]; norm_num [t])
    unfold ulpExp
    omega
  have hfl : floorTo (t * t) = 1 + 2 ^ (-51 : ℤ) := by
    have : ⌊t * t / 2 ^ (-52 : ℤ)⌋ = 2 ^ 52 + 2 := by
      rw [Int.floor_eq_iff]; norm_num [t]
    unfold floorTo ulp
    rw [hlog, this]; norm_num
  have hF : IsF (-(1 + 2 ^ (-51 : ℤ)) : ℚ) := ⟨-(2 ^ 52 + 2), -52, by norm_num, by norm_num, by norm_num⟩
  have f0 : floorTo (0 : ℚ) = 0 := floorTo_of_isF isF_zero
  have p1 : plus (-t) = 0 := by unfold plus; exact max_eq_right (by linarith)
  have p2 : plus t = t := by unfold plus; exact max_eq_left ht.le
  have m1 : minus (-t) = t := by unfold minus; rw [p1]; ring
  have m2 : minus t = 0 := by unfold minus; rw [p2]; ring
  have e : (mul (Rnd.b64 : Rnd ℚ) ⟨.kaucher, -t, -t⟩ ⟨.kaucher, t, t⟩).a = -(1 + 2 ^ (-51 : ℤ)) := by
    show floorTo (max (floorTo (plus (-t) * plus t)) (floorTo (minus (-t) * minus t))
      - max (floorTo (plus (-t) * minus t)) (floorTo (minus (-t) * plus t))) = _
    rw [p1, p2, m1, m2, zero_mul, mul_zero, zero_mul, f0, hfl, max_self,
      max_eq_right (by norm_num), zero_sub, floorTo_of_isF hF]
  rw [e] at this
  norm_num [t] at this

/-- C62, the part that holds: operands of the same sign, for any rounding and any class of the second
operand.  Missing: operands of opposite signs or containing zero. -/
theorem C62_kaucher_mul_encloses_partial (R : Rnd K) (X Y : Iv K) (cX : X.cls = .kaucher)
    (h : (0 ≤ X.a ∧ 0 ≤ Y.a) ∨ (X.b ≤ 0 ∧ Y.b ≤ 0)) :
    Encloses (mul R X Y) fun t => ∃ x ∈ X, ∃ y ∈ Y, t = x * y := by
  rintro _ ⟨x, ⟨hx1, hx2⟩, y, ⟨hy1, hy2⟩, rfl⟩
  have e : mul R X Y = mulMax R X Y := by unfold Iv.mul; rw [cX]
  rw [e]
  rcases h with ⟨ha, hb⟩ | ⟨ha, hb⟩
  · have hp : ∀ {t : K}, 0 ≤ t → plus t = t ∧ minus t = 0 := fun {t} ht =>
      ⟨max_eq_left ht, by unfold minus plus; rw [max_eq_left ht, sub_self]⟩
    have hx0 := ha.trans hx1
    have hy0 := hb.trans hy1
    constructor
    · show R.dn (max (R.dn (plus X.a * plus Y.a)) (R.dn (minus X.b * minus Y.b))
        - max (R.dn (plus X.b * minus Y.a)) (R.dn (minus X.a * plus Y.b))) ≤ x * y
      rw [(hp ha).1, (hp ha).2, (hp hb).1, (hp hb).2, (hp (hx0.trans hx2)).2]
      simp only [zero_mul, mul_zero, R.dn_zero, max_self, sub_zero]
      refine (R.dn_le _).trans (max_le ?_ (mul_nonneg hx0 hy0))
      exact (R.dn_le _).trans (mul_le_mul hx1 hy1 hb hx0)
    · show x * y ≤ R.up (max (R.up (plus X.b * plus Y.b)) (R.up (minus X.a * minus Y.a))
        - max (R.up (plus X.a * minus Y.b)) (R.up (minus X.b * plus Y.a)))
      rw [(hp (hx0.trans hx2)).1, (hp (hx0.trans hx2)).2, (hp (hy0.trans hy2)).1, (hp (hy0.trans hy2)).2,
        (hp ha).2]
      simp only [zero_mul, mul_zero, R.up_zero, max_self, sub_zero]
      refine le_trans ?_ (R.le_up _)
      refine le_trans ?_ (le_max_left _ _)
      exact (mul_le_mul hx2 hy2 hy0 (hx0.trans hx2)).trans (R.le_up _)
  · have hp : ∀ {t : K}, t ≤ 0 → plus t = 0 ∧ minus t = -t := fun {t} ht =>
      ⟨max_eq_right ht, by unfold minus plus; rw [max_eq_right ht, zero_sub]⟩
    have hx0 := hx2.trans ha
    have hy0 := hy2.trans hb
    constructor
    · show R.dn (max (R.dn (plus X.a * plus Y.a)) (R.dn (minus X.b * minus Y.b))
        - max (R.dn (plus X.b * minus Y.a)) (R.dn (minus X.a * plus Y.b))) ≤ x * y
      rw [(hp (hx1.trans hx0)).1, (hp ha).1, (hp ha).2, (hp hb).1, (hp hb).2, (hp (hy1.trans hy0)).1]
      simp only [zero_mul, mul_zero, R.dn_zero, max_self, sub_zero]
      refine (R.dn_le _).trans (max_le (mul_nonneg_of_nonpos_of_nonpos hx0 hy0) ?_)
      refine (R.dn_le _).trans ?_
      nlinarith
    · show x * y ≤ R.up (max (R.up (plus X.b * plus Y.b)) (R.up (minus X.a * minus Y.a))
        - max (R.up (plus X.a * minus Y.b)) (R.up (minus X.b * plus Y.a)))
      rw [(hp (hx1.trans hx0)).1, (hp (hx1.trans hx0)).2, (hp (hy1.trans hy0)).1, (hp (hy1.trans hy0)).2,
        (hp ha).1, (hp hb).1]
      simp only [zero_mul, mul_zero, R.up_zero, max_self, sub_zero]
      refine le_trans ?_ (R.le_up _)
      refine le_trans ?_ (le_max_right _ _)
      refine le_trans ?_ (R.le_up _)
      nlinarith

example : (0 : ℚ) ≤ (⟨.kaucher, 1, 2⟩ : Iv ℚ).a ∧ (0 : ℚ) ≤ (⟨.classical, 0, 5⟩ : Iv ℚ).a := by norm_num

/-! ## How far the product can be off -/

/-- The error of one rounded operation is at most `ε |x| + η`. -/
def RoundsWithin (R : Rnd K) (ε η : K) : Prop := ∀ x, x - R.dn x ≤ ε * |x| + η ∧ R.up x - x ≤ ε * |x| + η

theorem plus_le_abs (t : K) : plus t ≤ |t| := max_le (le_abs_self t) (abs_nonneg t)
theorem minus_le_abs (t : K) : minus t ≤ |t| := by rw [← plus_neg, ← abs_neg]; exact plus_le_abs _

/-- One combination `max(p1, p2) - max(p3, p4)` rounded down in all operations. -/
theorem maxForm_dn {R : Rnd K} {ε η M p1 p2 p3 p4 : K} (h : RoundsWithin R ε η) (hε : 0 ≤ ε) (h3 : 0 ≤ p3) (h4 : 0 ≤ p4)
    (m3 : p3 ≤ M) (m4 : p4 ≤ M) : maxForm R.dn p1 p2 p3 p4 ≤ maxForm id p1 p2 p3 p4 + (ε * M + η) := by
  unfold maxForm
  simp only [id]
  refine (R.dn_le _).trans ?_
  have a1 : max (R.dn p1) (R.dn p2) ≤ max p1 p2 := max_le_max (R.dn_le _) (R.dn_le _)
  have e3 := (h p3).1
  have e4 := (h p4).1
  rw [abs_of_nonneg h3] at e3
  rw [abs_of_nonneg h4] at e4
  have b3 := mul_le_mul_of_nonneg_left m3 hε
  have b4 := mul_le_mul_of_nonneg_left m4 hε
  have a2 : max p3 p4 ≤ max (R.dn p3) (R.dn p4) + (ε * M + η) := by
    refine max_le ?_ ?_
    · have := le_max_left (R.dn p3) (R.dn p4); linarith
    · have := le_max_right (R.dn p3) (R.dn p4); linarith
  linarith

/-- The same rounded up. -/
theorem maxForm_up {R : Rnd K} {ε η M p1 p2 p3 p4 : K} (h : RoundsWithin R ε η) (hε : 0 ≤ ε) (h3 : 0 ≤ p3) (h4 : 0 ≤ p4)
    (m3 : p3 ≤ M) (m4 : p4 ≤ M) : maxForm id p1 p2 p3 p4 ≤ maxForm R.up p1 p2 p3 p4 + (ε * M + η) := by
  unfold maxForm
  simp only [id]
  have a0 := R.le_up (max (R.up p1) (R.up p2) - max (R.up p3) (R.up p4))
  have a1 : max p1 p2 ≤ max (R.up p1) (R.up p2) := max_le_max (R.le_up _) (R.le_up _)
  have e3 := (h p3).2
  have e4 := (h p4).2
  rw [abs_of_nonneg h3] at e3
  rw [abs_of_nonneg h4] at e4
  have b3 := mul_le_mul_of_nonneg_left m3 hε
  have b4 := mul_le_mul_of_nonneg_left m4 hε
  have a2 : max (R.up p3) (R.up p4) ≤ max p3 p4 + (ε * M + η) := by
    refine max_le ?_ ?_
    · have := le_max_left p3 p4; linarith
    · have := le_max_right p3 p4; linarith
  linarith

theorem part_le (X Y : Iv K) {s t u v : K} (hs : s ≤ |u|) (ht : t ≤ |v|) (ht0 : 0 ≤ t)
    (hu : u = X.a ∨ u = X.b) (hv : v = Y.a ∨ v = Y.b) : s * t ≤ X.mag * Y.mag := by
  have h1 : |u| ≤ X.mag := by
    unfold Iv.mag
    rcases hu with rfl | rfl
    · exact le_max_left _ _
    · exact le_max_right _ _
  have h2 : |v| ≤ Y.mag := by
    unfold Iv.mag
    rcases hv with rfl | rfl
    · exact le_max_left _ _
    · exact le_max_right _ _
  exact mul_le_mul (hs.trans h1) (ht.trans h2) ht0 ((abs_nonneg u).trans h1)

/-- C62, how far the ends can lie inside: for all signs, proper and improper operands, with any rounding whose error is at
most `ε |x| + η`, each end of the computed product lies inside Kaucher's product by at most `ε |X| |Y| + η`. -/
theorem C62_error (R : Rnd K) (ε η : K) (h : RoundsWithin R ε η) (hε : 0 ≤ ε) (X Y : Iv K) (cX : X.cls = .kaucher)
    (u v : K) (huv : IsKaucherProduct X Y u v) :
    (mul R X Y).a ≤ u + (ε * (X.mag * Y.mag) + η) ∧ v - (ε * (X.mag * Y.mag) + η) ≤ (mul R X Y).b := by
  have k := C14_mul_is_kaucher_product X Y cX
  have e : ∀ R : Rnd K, mul R X Y = mulMax R X Y := fun R => by unfold Iv.mul; rw [cX]
  have eu : u = kInf (maxForm id) X Y ∧ v = kSup (maxForm id) X Y := by
    rw [e] at k
    change IsKaucherProduct X Y (kInf (maxForm id) X Y) (kSup (maxForm id) X Y) at k
    unfold IsKaucherProduct at k huv
    dsimp only at k huv
    split_ifs at k huv
    · exact ⟨huv.1.unique k.1, huv.2.unique k.2⟩
    · exact ⟨huv.1.unique k.1, huv.2.unique k.2⟩
  rw [e, eu.1, eu.2]
  constructor
  · change kInf (maxForm R.dn) X Y ≤ _
    exact maxForm_dn h hε (mul_nonneg (plus_nonneg _) (minus_nonneg _)) (mul_nonneg (minus_nonneg _) (plus_nonneg _))
      (part_le X Y (plus_le_abs _) (minus_le_abs _) (minus_nonneg _) (Or.inr rfl) (Or.inl rfl))
      (part_le X Y (minus_le_abs _) (plus_le_abs _) (plus_nonneg _) (Or.inl rfl) (Or.inr rfl))
  · change _ ≤ kSup (maxForm R.up) X Y
    have := maxForm_up (p1 := plus X.b * plus Y.b) (p2 := minus X.a * minus Y.a) h hε
      (mul_nonneg (plus_nonneg X.a) (minus_nonneg Y.b)) (mul_nonneg (minus_nonneg X.b) (plus_nonneg Y.a))
      (part_le X Y (plus_le_abs _) (minus_le_abs _) (minus_nonneg _) (Or.inl rfl) (Or.inr rfl))
      (part_le X Y (minus_le_abs _) (plus_le_abs _) (plus_nonneg _) (Or.inr rfl) (Or.inl rfl))
    unfold kSup
    linarith

/-- Rounding to binary64 (without overflow) satisfies the assumption. -/
theorem b64_within : RoundsWithin (Rnd.b64 : Rnd ℚ) (2 ^ (-52 : ℤ)) (2 ^ (-1074 : ℤ)) := by
  have hdn : ∀ x : ℚ, x - floorTo x ≤ 2 ^ (-52 : ℤ) * |x| + 2 ^ (-1074 : ℤ) := by
    intro x
    by_cases hx : x = 0
    · subst hx
      rw [floorTo_of_isF isF_zero, sub_zero, abs_zero, mul_zero, zero_add]
      exact (zpow_pos (by norm_num) _).le
    have hu := ulp_pos x
    have h1 : x - floorTo x ≤ ulp x := by
      unfold floorTo
      have h1 := Int.lt_floor_add_one (x / ulp x)
      rw [div_lt_iff₀ hu] at h1
      linarith
    refine h1.trans ?_
    have hl : (2 : ℚ) ^ (Int.log 2 |x|) ≤ |x| := by
      have := Int.zpow_log_le_self (b := 2) (r := |x|) (by norm_num) (abs_pos.mpr hx)
      exact_mod_cast this
    unfold ulp ulpExp
    rcases le_total (-1074 : ℤ) (Int.log 2 |x| - 52) with h | h
    · rw [max_eq_right h, show Int.log 2 |x| - 52 = -52 + Int.log 2 |x| by ring, zpow_add₀ (by norm_num)]
      have h2 : (0 : ℚ) < 2 ^ (-1074 : ℤ) := zpow_pos (by norm_num) _
      have h3 : (0 : ℚ) < 2 ^ (-52 : ℤ) := zpow_pos (by norm_num) _
      have := mul_le_mul_of_nonneg_left hl h3.le
      linarith
    · rw [max_eq_left h]
      have h3 : (0 : ℚ) < 2 ^ (-52 : ℤ) := zpow_pos (by norm_num) _
      have := mul_nonneg h3.le (abs_nonneg x)
      linarith
  intro x
  refine ⟨hdn x, ?_⟩
  change ceilTo x - x ≤ _
  have := hdn (-x)
  rw [ceilTo_eq, ← abs_neg x]
  linarith

/-- C62 in binary64: proper intervals of any signs; every product of members lies in the computed interval widened by
`2^-52 |X| |Y| + 2^-1074` on both sides. -/
theorem C62_b64_slack (X Y : Iv ℚ) (cX : X.cls = .kaucher) (hX : Proper X) (hY : Proper Y) (x y : ℚ) (hx : x ∈ X)
    (hy : y ∈ Y) :
    (mul Rnd.b64 X Y).a - (2 ^ (-52 : ℤ) * (X.mag * Y.mag) + 2 ^ (-1074 : ℤ)) ≤ x * y ∧
    x * y ≤ (mul Rnd.b64 X Y).b + (2 ^ (-52 : ℤ) * (X.mag * Y.mag) + 2 ^ (-1074 : ℤ)) := by
  have k := C14_mul_is_kaucher_product X Y cX
  obtain ⟨p, q⟩ := C62_error Rnd.b64 _ _ b64_within (zpow_pos (by norm_num) _).le X Y cX _ _ k
  have hX' : X.a ≤ X.b := hX
  have hY' : Y.a ≤ Y.b := hY
  unfold IsKaucherProduct at k
  dsimp only at k
  rw [if_pos hX'] at k
  have hb : Between X x := ⟨(min_le_left _ _).trans hx.1, hx.2.trans (le_max_right _ _)⟩
  have k1 := k.1.2 ⟨x, hb, rfl⟩
  have k2 := k.2.2 ⟨x, hb, rfl⟩
  have l1 : loAt Y x ≤ x * y := by
    rcases le_total 0 x with h0 | h0
    · rw [loAt_of_nonneg h0]; exact mul_le_mul_of_nonneg_left hy.1 h0
    · rw [loAt_of_nonpos h0]; exact mul_le_mul_of_nonpos_left hy.2 h0
  have l2 : x * y ≤ hiAt Y x := by
    rw [hiAt_eq_loAt]
    rcases le_total 0 x with h0 | h0
    · rw [loAt_of_nonneg h0]; exact mul_le_mul_of_nonneg_left hy.2 h0
    · rw [loAt_of_nonpos h0]; exact mul_le_mul_of_nonpos_left hy.1 h0
  constructor <;> linarith

/-- The hypotheses hold for the operands of the counterexample. -/
example : let t : ℚ := 1 + 2 ^ (-52 : ℤ)
    Proper (⟨.kaucher, -t, -t⟩ : Iv ℚ) ∧ Proper (⟨.kaucher, t, t⟩ : Iv ℚ) ∧ -t ∈ (⟨.kaucher, -t, -t⟩ : Iv ℚ) ∧
    t ∈ (⟨.kaucher, t, t⟩ : Iv ℚ) := ⟨le_rfl, le_rfl, ⟨le_rfl, le_rfl⟩, le_rfl, le_rfl⟩

end IntvalPy
