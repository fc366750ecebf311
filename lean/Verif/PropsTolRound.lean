import Verif.PropsRecFun
import Verif.PropsUtils
import Verif.PropsPrint
import Mathlib.Tactic.Linarith
import Mathlib.Tactic.FieldSimp

/-!
# The sign of the computed recognizing functionals

The values of `Tol.value` and `Uni.value` are computed in floating point: `A @ x` with outward
rounding, `b.mid`, `b.rad` and the remaining operations to nearest
(/repo/intvalpy/linear/Tol.py:13-21, /repo/intvalpy/linear/Uni.py:13-21).  This file shows what the
sign of the *computed* value says about the exact solution sets.
-/

set_option autoImplicit false
set_option linter.unusedSectionVars false

namespace IntvalPy
open Spec

/-! ## Rounding to nearest -/

theorem nearTo_neg (x : ℚ) : nearTo (-x) = -nearTo x := by
  have h : ulp (-x) = ulp x := by unfold ulp ulpExp; rw [abs_neg]
  unfold nearTo
  rw [h, neg_div, nearInt_neg]
  push_cast; ring

theorem nearTo_half_ulp (x : ℚ) : |nearTo x - x| ≤ 1 / 2 * ulp x := by
  have hu := ulp_pos x
  have e : nearTo x - x = ((nearInt (x / ulp x) : ℚ) - x / ulp x) * ulp x := by
    rw [sub_mul, div_mul_cancel₀ _ hu.ne']; rfl
  rw [e, abs_mul, abs_of_pos hu]
  exact mul_le_mul_of_nonneg_right (nearInt_err _) hu.le

/-- A double below the nearest double of `x` is at least as far from `x`. -/
theorem add_nearTo_le {x c : ℚ} (hc : IsF c) (h : c < nearTo x) : c + nearTo x ≤ 2 * x := by
  have hcx : c < x := by
    by_contra hx
    exact absurd ((nearTo_le_ceilTo x).trans (ceilTo_le hc (not_lt.mp hx))) (not_le.mpr h)
  by_cases hn : nearTo x ≤ x
  · linarith
  push Not at hn
  have hu := ulp_pos x
  have h1 := (abs_le.mp (nearTo_half_ulp x)).2
  have h2 : floorTo x ≤ nearTo x - ulp x := by
    have h3 : ⌊x / ulp x⌋ < nearInt (x / ulp x) := by
      have : x / ulp x < (nearInt (x / ulp x) : ℚ) := (div_lt_iff₀ hu).mpr hn
      exact_mod_cast (Int.floor_le _).trans_lt this
    have h4 : (⌊x / ulp x⌋ : ℚ) ≤ (nearInt (x / ulp x) : ℚ) - 1 := by
      have : ⌊x / ulp x⌋ ≤ nearInt (x / ulp x) - 1 := by omega
      exact_mod_cast this
    unfold floorTo nearTo
    nlinarith
  have h5 := le_floorTo hc hcx.le
  linarith

/-- Doubles of modulus at least `2 ^ k` are multiples of `2 ^ (k - 52)`. -/
theorem isF_multiple {x : ℚ} (h : IsF x) {k : ℤ} (hx : (2 : ℚ) ^ k ≤ |x|) :
    ∃ j : ℤ, x = j * 2 ^ (k - 52) := by
  obtain ⟨m, e, hm, he, rfl⟩ := h
  by_cases hk : k - 52 ≤ e
  · obtain ⟨t, ht⟩ := Int.eq_ofNat_of_zero_le (sub_nonneg.mpr hk)
    refine ⟨m * 2 ^ t, ?_⟩
    rw [show e = (t : ℤ) + (k - 52) by omega, zpow_add₀ (by norm_num)]
    push_cast
    rw [zpow_natCast]; ring
  · exfalso
    have h1 : (|m| : ℚ) < 2 ^ 53 := by exact_mod_cast hm
    have h2 : (2 : ℚ) ^ e ≤ 2 ^ (k - 53) := zpow_le_zpow_right₀ (by norm_num) (by omega)
    have h3 : (0 : ℚ) < 2 ^ e := zpow_pos (by norm_num) _
    rw [abs_mul, abs_of_pos h3] at hx
    have h4 : (2 : ℚ) ^ k = 2 ^ 53 * 2 ^ (k - 53) := by
      rw [← zpow_natCast, ← zpow_add₀ (by norm_num)]; congr 1; push_cast; ring
    have h5 : (0 : ℚ) < 2 ^ (k - 53) := zpow_pos (by norm_num) _
    nlinarith

/-- All doubles are multiples of the least positive one. -/
theorem isF_min {x : ℚ} (h : IsF x) : ∃ j : ℤ, x = j * 2 ^ (-1074 : ℤ) := by
  obtain ⟨m, e, hm, he, rfl⟩ := h
  obtain ⟨t, ht⟩ := Int.eq_ofNat_of_zero_le (show 0 ≤ e + 1074 by omega)
  refine ⟨m * 2 ^ t, ?_⟩
  rw [show e = (t : ℤ) + (-1074) by omega, zpow_add₀ (by norm_num)]
  push_cast
  rw [zpow_natCast]; ring

/-- Different multiples of `H` are at least `H` apart. -/
theorem multiple_gap {x y H : ℚ} (hH : 0 < H) (hx : ∃ j : ℤ, x = j * H) (hy : ∃ j : ℤ, y = j * H) (h : x < y) :
    x + H ≤ y := by
  obtain ⟨i, rfl⟩ := hx
  obtain ⟨j, rfl⟩ := hy
  have : (i : ℚ) < j := lt_of_mul_lt_mul_right h hH.le
  have h2 : i + 1 ≤ j := by exact_mod_cast this
  have h3 : (i : ℚ) + 1 ≤ j := by exact_mod_cast h2
  nlinarith

theorem multiple_add {x y H : ℚ} (hx : ∃ j : ℤ, x = j * H) (hy : ∃ j : ℤ, y = j * H) : ∃ j : ℤ, x + y = j * H := by
  obtain ⟨i, rfl⟩ := hx
  obtain ⟨j, rfl⟩ := hy
  exact ⟨i + j, by push_cast; ring⟩

/-- **The core of the certificate.**  `[a, b]` has doubles as its ends, `f` and `r` are its midpoint
and radius rounded to nearest, `z` is a double and `c` a double at least `z - f`.  If `c` is below
`r` then `z` is not beyond `b` — although `f` and `r` may both be wrong in the last place. -/
theorem near_ball_le {a b z c : ℚ} (ha : IsF a) (hb : IsF b) (hz : IsF z) (hc : IsF c) (hab : a ≤ b)
    (h1 : z - nearTo ((a + b) / 2) ≤ c) (h2 : c < nearTo ((b - a) / 2)) : z ≤ b := by
  by_contra hzb
  push Not at hzb
  set mid := (a + b) / 2 with hmid
  set rad := (b - a) / 2 with hrad
  set f := nearTo mid with hf
  set r := nearTo rad with hr
  have hcr := add_nearTo_le hc h2
  rw [← hr] at hcr
  have hd := (abs_le.mp (nearTo_half_ulp mid)).2
  rw [← hf] at hd
  -- the midpoint is rounded upwards by more than the distance of `z` from `b`
  have hd1 : z - b < f - mid := by linarith
  have hm0 : mid ≠ 0 := by
    intro h0
    rw [hf, h0, nearTo_of_isF isF_zero] at hd1
    linarith
  by_cases hE : Int.log 2 |mid| - 52 ≤ -1074
  · -- the least exponent: the doubles have constant distance
    have hu : ulp mid = 2 ^ (-1074 : ℤ) := by unfold ulp ulpExp; rw [max_eq_left hE]
    have hg := multiple_gap (H := 2 ^ (-1074 : ℤ)) (zpow_pos (by norm_num) _) (isF_min hb) (isF_min hz) hzb
    rw [hu] at hd
    have : (0 : ℚ) < 2 ^ (-1074 : ℤ) := zpow_pos (by norm_num) _
    linarith
  push Not at hE
  set k := Int.log 2 |mid| with hk
  have hu : ulp mid = 2 ^ (k - 52) := by unfold ulp ulpExp; rw [max_eq_right (by omega)]
  have hk1 : (2 : ℚ) ^ k ≤ |mid| := by
    have := Int.zpow_log_le_self (b := 2) (r := |mid|) (by norm_num) (abs_pos.mpr hm0)
    exact_mod_cast this
  set H : ℚ := 2 ^ (k - 1 - 52) with hH
  have hHp : 0 < H := by rw [hH]; exact zpow_pos (by norm_num) _
  have hG : ulp mid = 2 * H := by
    rw [hu, hH, ← zpow_one_add₀ (by norm_num)]; congr 1; ring
  set P : ℚ := 2 ^ (k - 1) with hP
  have hPp : 0 < P := by rw [hP]; exact zpow_pos (by norm_num) _
  have hkP : (2 : ℚ) ^ k = 2 * P := by
    rw [hP, ← zpow_one_add₀ (by norm_num)]; congr 1; ring
  rw [hkP] at hk1
  rw [hG] at hd
  have hPH : ∃ j : ℤ, P = j * H := by
    refine ⟨2 ^ 52, ?_⟩
    rw [hP, hH, sub_eq_add_neg (k - 1), zpow_add₀ (by norm_num)]
    push_cast
    rw [zpow_neg]; field_simp
    norm_num
  have mult : ∀ {x : ℚ}, IsF x → P ≤ |x| → ∃ j : ℤ, x = j * H := fun hx hP' => isF_multiple hx hP'
  -- `b` is close to zero compared with the midpoint
  have hbP : |b| ≤ P := by
    by_contra hbP
    push Not at hbP
    have hb' := mult hb hbP.le
    have hz' : P ≤ |z| ∨ |z| < P := le_or_gt _ _
    rcases hz' with hz' | hz'
    · have := multiple_gap hHp hb' (mult hz hz') hzb
      linarith
    · have hz2 := abs_lt.mp hz'
      have hneg : b < -P := by
        rcases lt_abs.mp hbP with h | h
        · linarith
        · linarith
      have hnP : ∃ j : ℤ, -P = j * H := by
        obtain ⟨j, hj⟩ := hPH
        exact ⟨-j, by rw [hj]; push_cast; ring⟩
      have := multiple_gap hHp hb' hnP hneg
      linarith
  have hbP' := abs_le.mp hbP
  have hmneg : mid ≤ -(2 * P) := by
    rcases le_abs.mp hk1 with h | h
    · exfalso; linarith
    · linarith
  have hfneg : f ≤ -(2 * P) := by
    have hF : IsF (-(2 * P)) := by
      have : IsF (2 * P) := by
        refine ⟨1, k, by norm_num, by omega, ?_⟩
        rw [← hkP]; simp
      exact this.neg
    exact (nearTo_le_ceilTo mid).trans (ceilTo_le hF hmneg)
  have hcP : P ≤ c := by linarith
  have hrP : P ≤ r := by linarith
  have haP : P ≤ -a := by linarith
  have mc := mult hc (hcP.trans (le_abs_self c))
  have mr := mult (nearTo_isF rad) (hrP.trans (le_abs_self r))
  have ma := mult ha (haP.trans (neg_le_abs a))
  have mf : ∃ j : ℤ, f = j * H := by
    refine ⟨2 * nearInt (mid / ulp mid), ?_⟩
    rw [hf]; unfold nearTo; rw [hG]; push_cast; ring
  have mac := multiple_add ma mc
  have mar := multiple_add ma mr
  have g1 : a + c + H ≤ f := multiple_gap hHp mac mf (by linarith)
  have g2 : a + c + H ≤ a + r := multiple_gap hHp mac mar (by linarith)
  -- `a + c` is one of the two multiples of `H` next below `f`
  have g3 : f - 2 * H < a + c := by linarith
  have mfH : ∃ j : ℤ, f - H = j * H := by
    obtain ⟨j, hj⟩ := mf
    exact ⟨j - 1, by rw [hj]; push_cast; ring⟩
  have g4 : f - H ≤ a + c := by
    by_contra hlt
    push Not at hlt
    have := multiple_gap hHp mac mfH hlt
    linarith
  linarith

/-- The same at the lower end. -/
theorem near_ball_ge {a b z c : ℚ} (ha : IsF a) (hb : IsF b) (hz : IsF z) (hc : IsF c) (hab : a ≤ b)
    (h1 : nearTo ((a + b) / 2) - z ≤ c) (h2 : c < nearTo ((b - a) / 2)) : a ≤ z := by
  have e1 : nearTo ((-b + -a) / 2) = -nearTo ((a + b) / 2) := by
    rw [← nearTo_neg]; congr 1; ring
  have e2 : nearTo ((-a - -b) / 2) = nearTo ((b - a) / 2) := by congr 1; ring
  have := near_ball_le hb.neg ha.neg hz.neg hc (neg_le_neg hab) (by rw [e1]; linarith) (by rw [e2]; exact h2)
  linarith

/-- Halving after rounding a sum of doubles is the same as rounding the half of the sum once. -/
theorem nearTo_half {x : ℚ} (hx : ∃ j : ℤ, x = j * 2 ^ (-1074 : ℤ)) : nearTo (1 / 2 * nearTo x) = nearTo (x / 2) := by
  by_cases h0 : x = 0
  · subst h0
    rw [nearTo_of_isF isF_zero, mul_zero, zero_div]
  have hpos := abs_pos.mpr h0
  by_cases hE : Int.log 2 |x| - 52 ≤ -1074
  · have hu : ulp x = 2 ^ (-1074 : ℤ) := by unfold ulp ulpExp; rw [max_eq_left hE]
    have hn : nearTo x = x := by
      obtain ⟨j, hj⟩ := hx
      have hp : (0 : ℚ) < 2 ^ (-1074 : ℤ) := zpow_pos (by norm_num) _
      have : x / ulp x = (j : ℚ) := by rw [hu, hj, mul_div_cancel_right₀ _ hp.ne']
      unfold nearTo
      rw [this, nearInt_intCast, hu, ← hj]
    rw [hn, one_div_mul_eq_div]
  · push Not at hE
    have hl1 : (2 : ℚ) ^ Int.log 2 |x| ≤ |x| := by
      have := Int.zpow_log_le_self (b := 2) (r := |x|) (by norm_num) hpos
      exact_mod_cast this
    have hl2 : |x| < (2 : ℚ) ^ (Int.log 2 |x| + 1) := by
      have := Int.lt_zpow_succ_log_self (b := 2) (by norm_num) |x|
      exact_mod_cast this
    have hu : ulp x = 2 ^ (Int.log 2 |x| - 52) := by unfold ulp ulpExp; rw [max_eq_right hE.le]
    have ha : |x / 2| = |x| / 2 := by rw [abs_div]; norm_num
    have hu2 : ulp (x / 2) = 2 ^ (Int.log 2 |x| - 1 - 52) := by
      have hlog : Int.log 2 |x / 2| = Int.log 2 |x| - 1 := by
        have hp2 : 0 < |x / 2| := by rw [ha]; linarith
        have a1 : Int.log 2 |x| - 1 ≤ Int.log 2 |x / 2| := (Int.zpow_le_iff_le_log (b := 2) (by norm_num) hp2).mp (by
          push_cast
          rw [ha, zpow_sub_one₀ (by norm_num)]
          linarith)
        have a2 : Int.log 2 |x / 2| < Int.log 2 |x| := (Int.lt_zpow_iff_log_lt (b := 2) (by norm_num) hp2).mp (by
          push_cast
          rw [zpow_add_one₀ (by norm_num)] at hl2
          rw [ha]
          linarith)
        omega
      unfold ulp ulpExp
      rw [hlog, max_eq_right (by omega)]
    have h2 : ulp x = 2 * ulp (x / 2) := by
      rw [hu, hu2, ← zpow_one_add₀ (by norm_num)]; congr 1; ring
    have hn : nearTo x = 2 * nearTo (x / 2) := by
      have hq : x / ulp x = x / 2 / ulp (x / 2) := by
        rw [h2, div_div]
      unfold nearTo
      rw [hq, h2]; ring
    rw [hn, ← mul_assoc, show (1 : ℚ) / 2 * 2 = 1 by norm_num, one_mul]
    exact nearTo_of_isF (nearTo_isF _)

/-- The computed midpoint of an interval of doubles is the exact midpoint rounded once. -/
theorem mid_b64 (b : Iv ℚ) (ha : IsF b.a) (hb : IsF b.b) : b.mid Rnd.b64 = nearTo ((b.a + b.b) / 2) := by
  show nearTo (1 / 2 * nearTo (b.b + b.a)) = _
  rw [nearTo_half (multiple_add (isF_min hb) (isF_min ha)), add_comm]

/-- The computed radius of an interval of doubles is the exact radius rounded once. -/
theorem rad_b64 (b : Iv ℚ) (ha : IsF b.a) (hb : IsF b.b) : b.rad Rnd.b64 = nearTo ((b.b - b.a) / 2) := by
  show nearTo (1 / 2 * nearTo (b.b - b.a)) = _
  rw [nearTo_half (by rw [sub_eq_add_neg]; exact multiple_add (isF_min hb) (isF_min ha.neg))]

/-! ## The parts of the functionals -/

theorem mapM_id_inv {K : Type} {l : List (Except Err K)} {vs : List K} (h : l.mapM id = .ok vs) :
    l = vs.map Except.ok := by
  induction l generalizing vs with
  | nil => cases h; rfl
  | cons y ys ih =>
    rw [List.mapM_cons] at h
    cases y with
    | error e => cases h
    | ok t =>
      cases hs : ys.mapM (id : Except Err K → Except Err K) with
      | error e => rw [hs] at h; cases h
      | ok us =>
        rw [hs] at h
        cases h
        rw [ih hs]; rfl

/-- If the minimum is a number then every part is one, and the minimum is the least of them. -/
theorem minOver_inv {m : ℕ} {f : Fin m → Except Err ℚ} {v : ℚ} (h : minOver (List.ofFn f) = .ok v) :
    ∃ g : Fin m → ℚ, (∀ i, f i = .ok (g i)) ∧ (∀ i, v ≤ g i) ∧ ∃ i, v = g i := by
  unfold minOver at h
  cases hl : (List.ofFn f).mapM (id : Except Err ℚ → Except Err ℚ) with
  | error e => rw [hl] at h; cases h
  | ok vs =>
    rw [hl] at h
    have e := mapM_id_inv hl
    have hf : ∀ i, ∃ t ∈ vs, f i = .ok t := fun i => by
      have hi : f i ∈ List.ofFn f := List.mem_ofFn.mpr ⟨i, rfl⟩
      rw [e, List.mem_map] at hi
      obtain ⟨t, h1, h2⟩ := hi
      exact ⟨t, h1, h2.symm⟩
    choose g hg hfg using hf
    obtain ⟨hv, hle⟩ := npAmin_spec h
    refine ⟨g, hfg, fun i => hle _ (hg i), ?_⟩
    have : Except.ok v ∈ List.ofFn f := by rw [e]; exact List.mem_map_of_mem hv
    obtain ⟨i, hi⟩ := List.mem_ofFn.mp this
    exact ⟨i, by have := hi.symm.trans (hfg i); cases this; rfl⟩

/-- The ends of `A @ x` are doubles. -/
theorem rowDot_isF {n : ℕ} {row : Fin n → Iv ℚ} {x : Fin n → ℚ} {Z : Iv ℚ} (h : ∀ j, Ordinary (row j))
    (hZ : rowDot Rnd.b64 row x = .ok Z) : IsF Z.a ∧ IsF Z.b := by
  have hm : ∀ (X : Iv ℚ) (c : ℚ), Ordinary X → IsF (Iv.mulNum Rnd.b64 X c).a ∧ IsF (Iv.mulNum Rnd.b64 X c).b := by
    rintro ⟨cls, a, b⟩ c ⟨hc, _⟩
    cases hc
    simp only [Iv.mulNum, Iv.rmul]
    constructor
    · rcases min_choice (Rnd.b64.dn (c * a)) (Rnd.b64.dn (c * b)) with e | e <;> rw [e] <;> exact floorTo_isF _
    · rcases max_choice (Rnd.b64.up (c * a)) (Rnd.b64.up (c * b)) with e | e <;> rw [e] <;> exact ceilTo_isF _
  have hf : ∀ (l : List (Iv ℚ)) (X : Iv ℚ), (IsF X.a ∧ IsF X.b) →
      IsF (l.foldl (Iv.add Rnd.b64) X).a ∧ IsF (l.foldl (Iv.add Rnd.b64) X).b := by
    intro l
    induction l with
    | nil => exact fun _ h => h
    | cons y ys ih => 
      refine fun X _ => ih _ ⟨?_, ?_⟩
      · unfold Iv.add; cases X.cls <;> exact floorTo_isF _
      · unfold Iv.add; cases X.cls <;> exact ceilTo_isF _
  cases n with
  | zero => simp [rowDot, dotIN, objDot] at hZ
  | succ n =>
    simp only [rowDot, dotIN, List.ofFn_succ, objDot] at hZ
    cases hZ
    exact hf _ _ (hm _ _ (h 0))

/-- `A @ x` encloses every `A' x`. -/
theorem rowDot_encloses {n : ℕ} (R : Rnd ℚ) {row : Fin n → Iv ℚ} {x : Fin n → ℚ} {Z : Iv ℚ}
    (h : ∀ j, Ordinary (row j)) (hZ : rowDot R row x = .ok Z) (a' : Fin n → ℚ) (ha : ∀ j, a' j ∈ row j) :
    ∑ j, a' j * x j ∈ Z := by
  cases n with
  | zero => simp [rowDot, dotIN, objDot] at hZ
  | succ n =>
    obtain ⟨Z', h1, _, h3⟩ := (C26_matmul_point_encloses R row x n.succ_pos h a' ha).1
    rw [rowDot, h1] at hZ
    cases hZ
    exact h3

theorem pos_of_nr_pos (R : Rnd ℚ) {t : ℚ} (h : 0 < R.nr t) : 0 < t := by
  by_contra h0
  have h1 := (R.nr_le_up t).trans (R.up_mono (not_lt.mp h0))
  rw [R.up_zero] at h1
  linarith

theorem neg_of_nr_neg (R : Rnd ℚ) {t : ℚ} (h : R.nr t < 0) : t < 0 := by
  by_contra h0
  have h1 := (R.dn_mono (not_lt.mp h0)).trans (R.dn_le_nr t)
  rw [R.dn_zero] at h1
  linarith

theorem pos_of_weighted (R : Rnd ℚ) {w t : ℚ} (hw : 0 ≤ w) (h : 0 < R.nr (w * R.nr t)) : 0 < t :=
  pos_of_nr_pos R (pos_of_mul_pos_right (pos_of_nr_pos R h) hw)

theorem neg_of_weighted (R : Rnd ℚ) {w t : ℚ} (hw : 0 ≤ w) (h : R.nr (w * R.nr t) < 0) : t < 0 := by
  refine neg_of_nr_neg R ?_
  have := neg_of_nr_neg R h
  by_contra h0
  exact absurd (mul_nonneg hw (not_lt.mp h0)) (not_le.mpr this)

/-- The interval with the computed midpoint and the computed radius. -/
def computedBall (R : Rnd ℚ) (b : Iv ℚ) : Iv ℚ := ⟨.classical, b.mid R - b.rad R, b.mid R + b.rad R⟩

/-! ## C125: a positive value of Tol -/

/-- The parts of the computed `Tol` bound the distance of `A' x` from the computed midpoint. -/
theorem tol_part {n : ℕ} (R : Rnd ℚ) {row : Fin n → Iv ℚ} {b : Iv ℚ} {w v : ℚ} {x : Fin n → ℚ}
    (hw : 0 ≤ w) (h : tolConstituent R row b w x = .ok v) (hv : 0 < v) :
    ∃ Z, rowDot R row x = .ok Z ∧ |R.dn (-Z.b + b.mid R)| < b.rad R ∧ |R.up (-Z.a + b.mid R)| < b.rad R := by
  unfold tolConstituent at h
  cases hZ : rowDot R row x with
  | error e => rw [hZ] at h; cases h
  | ok Z =>
    rw [hZ] at h
    simp only [Except.ok.injEq] at h
    rw [← h] at hv
    have h1 := pos_of_weighted R hw hv
    have h2 : max |R.dn (-Z.b + b.mid R)| |R.up (-Z.a + b.mid R)| < b.rad R := sub_pos.mp h1
    exact ⟨Z, rfl, lt_of_le_of_lt (le_max_left _ _) h2, lt_of_le_of_lt (le_max_right _ _) h2⟩

/-- C125: whatever the rounding, if the computed value of `Tol` is positive then `x` is a tolerable
solution for the right-hand side with the computed midpoints and radii. -/
theorem C125_tol_ball {m n : ℕ} (R : Rnd ℚ) (A : Fin m → Fin n → Iv ℚ) (b : Fin m → Iv ℚ) (w : Fin m → ℚ)
    (x : Fin n → ℚ) (hA : ∀ i j, Ordinary (A i j)) (hw : ∀ i, 0 ≤ w i) {v : ℚ}
    (h : tolValue R A b w x = .ok v) (hv : 0 < v) : Tolerable A (fun i => computedBall R (b i)) x := by
  obtain ⟨g, hg, hle, _⟩ := minOver_inv h
  intro A' hA' i
  obtain ⟨Z, hZ, h1, h2⟩ := tol_part R (hw i) (hg i) (hv.trans_le (hle i))
  have hm := Iv.mem_def.mp (rowDot_encloses R (hA i) hZ (A' i) (hA' i))
  have h3 := R.dn_le (-Z.b + (b i).mid R)
  have h4 := R.le_up (-Z.a + (b i).mid R)
  have h5 := (abs_lt.mp h1).1
  have h6 := (abs_lt.mp h2).2
  rw [Iv.mem_def]
  show (b i).mid R - (b i).rad R ≤ ∑ j, A' i j * x j ∧ ∑ j, A' i j * x j ≤ (b i).mid R + (b i).rad R
  constructor <;> linarith [hm.1, hm.2]

/-- **C125**: in binary64, for a right-hand side whose ends are doubles, a positive computed value of
`Tol` proves that `x` is a tolerable solution of the system itself: the errors of the computed
midpoint and radius of `b`, which are not directed, cannot make the value positive wrongly. -/
theorem C125_tol_certificate {m n : ℕ} (A : Fin m → Fin n → Iv ℚ) (b : Fin m → Iv ℚ) (w : Fin m → ℚ)
    (x : Fin n → ℚ) (hA : ∀ i j, Ordinary (A i j)) (hb : ∀ i, Ordinary (b i))
    (hF : ∀ i, IsF (b i).a ∧ IsF (b i).b) (hw : ∀ i, 0 ≤ w i) {v : ℚ}
    (h : tolValue Rnd.b64 A b w x = .ok v) (hv : 0 < v) : Tolerable A b x := by
  obtain ⟨g, hg, hle, _⟩ := minOver_inv h
  intro A' hA' i
  obtain ⟨Z, hZ, h1, h2⟩ := tol_part Rnd.b64 (hw i) (hg i) (hv.trans_le (hle i))
  have hm := Iv.mem_def.mp (rowDot_encloses Rnd.b64 (hA i) hZ (A' i) (hA' i))
  obtain ⟨f1, f2⟩ := rowDot_isF (hA i) hZ
  obtain ⟨g1, g2⟩ := hF i
  have isFabs : ∀ {t : ℚ}, IsF t → IsF |t| := fun {t} ht => by
    rcases abs_choice t with e | e <;> rw [e]
    · exact ht
    · exact ht.neg
  rw [rad_b64 _ g1 g2, mid_b64 _ g1 g2] at h1 h2
  have up := near_ball_le g1 g2 f2 (isFabs (floorTo_isF _)) (hb i).2 (by
    have h3 := floorTo_le (-Z.b + nearTo (((b i).a + (b i).b) / 2))
    have h4 := neg_abs_le (floorTo (-Z.b + nearTo (((b i).a + (b i).b) / 2)))
    linarith) h1
  have lo := near_ball_ge g1 g2 f1 (isFabs (ceilTo_isF _)) (hb i).2 (by
    have h3 := le_ceilTo (-Z.a + nearTo (((b i).a + (b i).b) / 2))
    have h4 := le_abs_self (ceilTo (-Z.a + nearTo (((b i).a + (b i).b) / 2)))
    linarith) h2
  rw [Iv.mem_def]
  exact ⟨lo.trans hm.1, hm.2.trans up⟩

/-! ## C126: a negative value of Uni -/

theorem uni_part {n : ℕ} (R : Rnd ℚ) {row : Fin n → Iv ℚ} {b : Iv ℚ} {w v : ℚ} {x : Fin n → ℚ}
    (hrow : ∀ j, Ordinary (row j)) (hw : 0 ≤ w) (h : uniConstituent R row b w x = .ok v) (hv : v < 0)
    (a' : Fin n → ℚ) (ha : ∀ j, a' j ∈ row j) : b.rad R < |b.mid R - ∑ j, a' j * x j| := by
  unfold uniConstituent at h
  cases hZ : rowDot R row x with
  | error e => rw [hZ] at h; cases h
  | ok Z =>
    rw [hZ] at h
    simp only [Except.ok.injEq] at h
    rw [← h] at hv
    have h1 := neg_of_weighted R hw hv
    have hm := Iv.mem_def.mp (rowDot_encloses R hrow hZ a' ha)
    have h3 := R.dn_le (-Z.b + b.mid R)
    have h4 := R.le_up (-Z.a + b.mid R)
    refine lt_of_lt_of_le (sub_neg.mp h1) ?_
    unfold Iv.mig
    split_ifs with hc
    · exact abs_nonneg _
    · have hc' : ¬ (R.dn (-Z.b + b.mid R) ≤ 0 ∧ 0 ≤ R.up (-Z.a + b.mid R)) := by
        rintro ⟨p, q⟩
        refine hc ?_
        show (decide (R.dn (-Z.b + b.mid R) ≤ 0) && decide (0 ≤ R.up (-Z.a + b.mid R))) = true
        rw [decide_eq_true p, decide_eq_true q]; rfl
      show min |R.dn (-Z.b + b.mid R)| |R.up (-Z.a + b.mid R)| ≤ _
      by_cases hp : R.dn (-Z.b + b.mid R) ≤ 0
      · have hn : R.up (-Z.a + b.mid R) < 0 := by
          by_contra hge
          exact hc' ⟨hp, not_lt.mp hge⟩
        refine (min_le_right _ _).trans ?_
        rw [abs_of_neg hn]
        exact le_trans (by linarith [hm.1]) (neg_le_abs _)
      · push Not at hp
        refine (min_le_left _ _).trans ?_
        rw [abs_of_pos hp]
        exact le_trans (by linarith [hm.2]) (le_abs_self _)

/-- C126: whatever the rounding, if the computed value of `Uni` is negative then `x` is not a united
solution for the right-hand side with the computed midpoints and radii. -/
theorem C126_uni_ball {m n : ℕ} (R : Rnd ℚ) (A : Fin m → Fin n → Iv ℚ) (b : Fin m → Iv ℚ) (w : Fin m → ℚ)
    (x : Fin n → ℚ) (hA : ∀ i j, Ordinary (A i j)) (hw : ∀ i, 0 ≤ w i) {v : ℚ}
    (h : uniValue R A b w x = .ok v) (hv : v < 0) : ¬ United A (fun i => computedBall R (b i)) x := by
  obtain ⟨g, hg, _, i, hi⟩ := minOver_inv h
  rintro ⟨A', hA', b', hb', he⟩
  have h1 := uni_part R (hA i) (hw i) (hg i) (hi ▸ hv) (A' i) (hA' i)
  have h2 := Iv.mem_def.mp (hb' i)
  have h3 : ∑ j, A' i j * x j = b' i := he i
  rw [h3] at h1
  have h4 : |(b i).mid R - b' i| ≤ (b i).rad R := by
    have l1 : (b i).mid R - (b i).rad R ≤ b' i := h2.1
    have l2 : b' i ≤ (b i).mid R + (b i).rad R := h2.2
    rw [abs_le]; constructor <;> linarith
  linarith

/-- C126, full statement: a negative computed value of `Uni` proves that `x` is not a united solution. -/
def C126_statement : Prop :=
  ∀ (m n : ℕ) (A : Fin m → Fin n → Iv ℚ) (b : Fin m → Iv ℚ) (w : Fin m → ℚ) (x : Fin n → ℚ) (v : ℚ),
    (∀ i j, Ordinary (A i j)) → (∀ i, Ordinary (b i)) → (∀ i, IsF (b i).a ∧ IsF (b i).b) → (∀ i, 0 ≤ w i) →
    uniValue Rnd.b64 A b w x = .ok v → v < 0 → ¬ United A b x

/-- C126 when the midpoints and radii of `b` are doubles.  Missing from the full statement: right-hand
sides whose midpoint or radius is rounded, where it is false. -/
theorem C126_uni_certificate_partial {m n : ℕ} (A : Fin m → Fin n → Iv ℚ) (b : Fin m → Iv ℚ) (w : Fin m → ℚ)
    (x : Fin n → ℚ) (hA : ∀ i j, Ordinary (A i j)) (hF : ∀ i, IsF (b i).a ∧ IsF (b i).b)
    (hmid : ∀ i, IsF (((b i).a + (b i).b) / 2)) (hrad : ∀ i, IsF (((b i).b - (b i).a) / 2))
    (hw : ∀ i, 0 ≤ w i) {v : ℚ} (h : uniValue Rnd.b64 A b w x = .ok v) (hv : v < 0) : ¬ United A b x := by
  intro hU
  refine C126_uni_ball Rnd.b64 A b w x hA hw h hv ?_
  obtain ⟨A', hA', b', hb', he⟩ := hU
  refine ⟨A', hA', b', fun i => ?_, he⟩
  have h2 := Iv.mem_def.mp (hb' i)
  rw [Iv.mem_def]
  simp only [computedBall, mid_b64 _ (hF i).1 (hF i).2, rad_b64 _ (hF i).1 (hF i).2, nearTo_of_isF (hmid i),
    nearTo_of_isF (hrad i)]
  constructor <;> linarith [h2.1, h2.2]

/-- `[1, 1] x = [-4, -(1 + 7/2^52)]` with `x` the upper end of the right-hand side: the midpoint
`-5/2 - 7/2^53` is rounded away from `x` and the radius `3/2 - 7/2^53` towards zero, so the computed value is
negative. -/
theorem uni_witness : uniValue (Rnd.b64 : Rnd ℚ) (fun _ _ : Fin 1 => ⟨.classical, 1, 1⟩)
    (fun _ : Fin 1 => ⟨.classical, -4, -(1 + 7 / 2 ^ 52)⟩) (fun _ => 1) (fun _ => -(1 + 7 / 2 ^ 52))
      = .ok (-(1 / 2 ^ 52)) := by
  decide +kernel

theorem isF_frac (z : ℤ) (h : |z| ≤ 2 ^ 53) : IsF ((z : ℚ) / 2 ^ 52) := by
  have := isF_of_int (K := ℚ) h (show (-1074 : ℤ) ≤ -52 by norm_num)
  rwa [zpow_neg, ← div_eq_mul_inv] at this

/-- **C126 is false**: the computed value of `Uni` is negative at a point of the united solution set. -/
theorem C126_uni_certificate_false : ¬ C126_statement := by
  intro h
  refine h 1 1 _ _ _ _ _ (fun _ _ => ⟨rfl, le_refl _⟩) (fun _ => ⟨rfl, ?_⟩) (fun _ => ⟨?_, ?_⟩) (fun _ => ?_) uni_witness
    ?_ ?_
  · show (-4 : ℚ) ≤ -(1 + 7 / 2 ^ 52); norm_num
  · show IsF (-4 : ℚ)
    have := isF_int (K := ℚ) (z := -4) (by norm_num)
    simpa using this
  · show IsF (-(1 + 7 / 2 ^ 52) : ℚ)
    have := isF_frac (-(2 ^ 52 + 7)) (by norm_num)
    convert this using 1
    norm_num
  · exact zero_le_one
  · norm_num
  · refine ⟨fun _ _ => 1, fun _ _ => Iv.mem_def.mpr ⟨le_refl _, le_refl _⟩, fun _ => -(1 + 7 / 2 ^ 52), fun _ =>
      Iv.mem_def.mpr ⟨?_, le_refl _⟩, fun i => ?_⟩
    · show (-4 : ℚ) ≤ -(1 + 7 / 2 ^ 52); norm_num
    · simp [apply]

/-- Strictness is needed in C125: `[1, 1] x = [-1, 9/2^56]` at `x = 11/2^56`, outside the right-hand
side: the computed value of `Tol` is zero. -/
theorem C125_zero_value_false : ¬ ∀ (m n : ℕ) (A : Fin m → Fin n → Iv ℚ) (b : Fin m → Iv ℚ) (w : Fin m → ℚ)
    (x : Fin n → ℚ) (v : ℚ), (∀ i j, Ordinary (A i j)) → (∀ i, Ordinary (b i)) →
    (∀ i, IsF (b i).a ∧ IsF (b i).b) → (∀ i, 0 ≤ w i) → tolValue Rnd.b64 A b w x = .ok v → 0 ≤ v →
    Tolerable A b x := by
  intro h
  have hv : tolValue (Rnd.b64 : Rnd ℚ) (fun _ _ : Fin 1 => ⟨.classical, 1, 1⟩)
      (fun _ : Fin 1 => ⟨.classical, -1, 9 / 2 ^ 56⟩) (fun _ => 1) (fun _ => 11 / 2 ^ 56) = .ok 0 := by
    decide +kernel
  have h1 := h 1 1 _ _ _ _ _ (fun _ _ => ⟨rfl, le_refl _⟩) (fun _ => ⟨rfl, by
    show (-1 : ℚ) ≤ 9 / 2 ^ 56; norm_num⟩) (fun _ => ⟨by
      have := isF_int (K := ℚ) (z := -1) (by norm_num)
      simpa using this, by
      have := isF_of_int (K := ℚ) (m := 9) (e := -56) (by norm_num) (by norm_num)
      show IsF (9 / 2 ^ 56 : ℚ)
      convert this using 1
      norm_num⟩) (fun _ => zero_le_one) hv (le_refl _) (fun _ _ => 1)
      (fun _ _ => Iv.mem_def.mpr ⟨le_refl _, le_refl _⟩) 0
  have h2 : apply (fun (_ _ : Fin 1) => (1 : ℚ)) (fun _ => 11 / 2 ^ 56) 0 ≤ 9 / 2 ^ 56 := (Iv.mem_def.mp h1).2
  simp only [apply, Fin.sum_univ_one] at h2
  norm_num at h2

/-- C125 at work where the midpoint and the radius of `b` are both rounded: `[1/10, 2]` with `1/10` the
double nearest to it, and `x = 1`. -/
example : (match tolValue (Rnd.b64 : Rnd ℚ) (fun _ _ : Fin 1 => ⟨.classical, 1, 1⟩)
    (fun _ : Fin 1 => ⟨.classical, 3602879701896397 / 2 ^ 55, 2⟩) (fun _ => 1) (fun _ => 1) with
    | .ok v => decide (0 < v)
    | .error _ => false) = true := by
  decide +kernel

/-- C126 at work: `x = 3` is no united solution of `[1, 2] x = [0, 2]`. -/
example : uniValue (Rnd.b64 : Rnd ℚ) (fun _ _ : Fin 1 => ⟨.classical, 1, 2⟩)
    (fun _ : Fin 1 => ⟨.classical, 0, 2⟩) (fun _ => 1) (fun _ => 3) = .ok (-1) := by
  decide +kernel

end IntvalPy
