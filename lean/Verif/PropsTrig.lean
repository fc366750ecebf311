import Verif.PropsElem
import Mathlib.Analysis.Real.Pi.Bounds

/-!
# L1 properties of sin and cos (C29)

The code locates extrema with the double `PI`.  For arguments up to `2 ^ 20` in magnitude the located position is off
by less than `2 ^ -29`; the cosine is then within `2 ^ -59` of its extremum, closer than any other double, so the
answer is still an enclosure.  For huge arguments this breaks down (see `C29_large_argument_false`).
-/

set_option autoImplicit false
set_option linter.unusedSectionVars false

namespace IntvalPy

open FIv (Shift)

/-- The exact shift meant by the code. -/
noncomputable def FIv.Shift.real : Shift → ℝ
  | .plusHalf => Real.pi / 2
  | .minusHalf => -(Real.pi / 2)
  | .minusPi => -Real.pi
  | .none => 0

/-- The shift the code adds. -/
def FIv.Shift.val : Shift → ℚ
  | .plusHalf => piD / 2
  | .minusHalf => -(piD / 2)
  | .minusPi => -piD
  | .none => 0

theorem piD_err : |(piD : ℝ) - Real.pi| ≤ 2 ^ (-50 : ℤ) := by
  have h1 := Real.pi_gt_d20
  have h2 := Real.pi_lt_d20
  have e : ((piD : ℚ) : ℝ) = 884279719003555 / 2 ^ 48 := by unfold piD; push_cast; rfl
  rw [e, abs_le]
  constructor
  · norm_num at h1 h2 ⊢; linarith
  · norm_num at h1 h2 ⊢; linarith

theorem piD_bounds : (3 : ℚ) < piD ∧ piD < 4 := by unfold piD; constructor <;> norm_num

theorem isF_piD : IsF piD ∧ IsF (piD / 2) ∧ IsF (2 * piD) := by
  refine ⟨⟨884279719003555, -48, by norm_num, by norm_num, ?_⟩, ⟨884279719003555, -49, by norm_num, by norm_num, ?_⟩,
    ⟨884279719003555, -47, by norm_num, by norm_num, ?_⟩⟩ <;> unfold piD <;> norm_num

theorem shift_err (sh : Shift) : |((sh.val : ℚ) : ℝ) - sh.real| ≤ 2 ^ (-50 : ℤ) := by
  have h := piD_err
  rw [abs_le] at h ⊢
  cases sh <;> simp only [FIv.Shift.val, FIv.Shift.real] <;> push_cast <;> constructor <;>
    first | linarith | (norm_num at h ⊢; try linarith)

theorem shift_abs (sh : Shift) : |sh.val| ≤ 4 ∧ |sh.real| ≤ 4 := by
  have h1 := piD_bounds
  have h2 := Real.pi_gt_three
  have h3 := Real.pi_le_four
  cases sh <;> simp only [FIv.Shift.val, FIv.Shift.real, abs_le] <;> refine ⟨⟨?_, ?_⟩, ⟨?_, ?_⟩⟩ <;> linarith

/-- An argument of moderate size. -/
def Num.Moderate (n : Num) (q : ℚ) : Prop := n.IntsLe (2 ^ 52) ∧ n.val = .fin q ∧ |q| ≤ 2 ^ 20

theorem shifted_run (sh : Shift) (m : Mode) (v : Num) (q : ℚ) (hv : v.Moderate q) :
    ∃ (t : Num) (r : ℚ), FIv.shifted sh v m = (.ok t, m) ∧ t.IntsLe (2 ^ 53 - 1) ∧ t.val = .fin r ∧
      |r - (q + sh.val)| ≤ 2 ^ (-32 : ℤ) := by
  obtain ⟨h1, h2, h3⟩ := hv
  have key : ∀ (c : ℚ) (w : ℚ), |c| ≤ 4 → w = q + c → ∃ r, round m w = .fin r ∧ |r - (q + c)| ≤ 2 ^ (-32 : ℤ) := by
    intro c w hc hw
    obtain ⟨r, e1, e2, _⟩ := round_small m (x := w) (n := 20) (by
      rw [hw]; refine (abs_add_le _ _).trans_lt ?_
      norm_num at h3 ⊢; linarith) (by norm_num) (by norm_num)
    exact ⟨r, e1, by rw [← hw]; exact_mod_cast e2⟩
  cases sh with
  | plusHalf =>
    obtain ⟨r, e1, e2⟩ := key (piD / 2) (q + piD / 2) (shift_abs .plusHalf).1 rfl
    refine ⟨.dbl (.fin r), r, ?_, trivial, rfl, e2⟩
    refine run_op_ok (f := fun m => Num.add m v _) ?_
    have : Num.add m v (.dbl (.fin (piD / 2))) = Num.viaDbl (fun p q => .ok (Dbl.add m p q)) v (.dbl (.fin (piD / 2))) := by
      cases v <;> rfl
    rw [this, viaDbl_of_small _ (h1.mono (by norm_num)) (y := .dbl _) trivial, h2]
    show Except.ok (Num.dbl (round m (q + piD / 2))) = _
    rw [e1]
  | minusHalf =>
    obtain ⟨r, e1, e2⟩ := key (-(piD / 2)) (q - piD / 2) (shift_abs .minusHalf).1 (by ring)
    refine ⟨.dbl (.fin r), r, ?_, trivial, rfl, e2⟩
    refine run_op_ok (f := fun m => Num.sub m v _) ?_
    have : Num.sub m v (.dbl (.fin (piD / 2))) = Num.viaDbl (fun p q => .ok (Dbl.sub m p q)) v (.dbl (.fin (piD / 2))) := by
      cases v <;> rfl
    rw [this, viaDbl_of_small _ (h1.mono (by norm_num)) (y := .dbl _) trivial, h2]
    show Except.ok (Num.dbl (Dbl.sub m (.fin q) (.fin (piD / 2)))) = _
    have e3 : Dbl.sub m (.fin q) (.fin (piD / 2)) = round m (q - piD / 2) := by
      simp [Dbl.sub, Dbl.add, Dbl.neg, sub_eq_add_neg]
    rw [e3, e1]
  | minusPi =>
    obtain ⟨r, e1, e2⟩ := key (-piD) (q - piD) (shift_abs .minusPi).1 (by ring)
    refine ⟨.dbl (.fin r), r, ?_, trivial, rfl, e2⟩
    refine run_op_ok (f := fun m => Num.sub m v _) ?_
    have : Num.sub m v (.dbl (.fin piD)) = Num.viaDbl (fun p q => .ok (Dbl.sub m p q)) v (.dbl (.fin piD)) := by
      cases v <;> rfl
    rw [this, viaDbl_of_small _ (h1.mono (by norm_num)) (y := .dbl _) trivial, h2]
    show Except.ok (Num.dbl (Dbl.sub m (.fin q) (.fin piD))) = _
    have e3 : Dbl.sub m (.fin q) (.fin piD) = round m (q - piD) := by
      simp [Dbl.sub, Dbl.add, Dbl.neg, sub_eq_add_neg]
    rw [e3, e1]
  | none =>
    refine ⟨v, q, rfl, h1.mono (by norm_num), h2, ?_⟩
    simp [FIv.Shift.val]

/-- The number of turns is computed with an error below `2 ^ -32`, in every rounding mode. -/
theorem turns_run (sh : Shift) (m : Mode) (v : Num) (q : ℚ) (hv : v.Moderate q) :
    ∃ w : ℚ, FIv.turns sh v m = (.ok (.fin w), m) ∧
      |(w : ℝ) - (q + sh.real) / (2 * Real.pi)| ≤ 2 ^ (-32 : ℤ) := by
  obtain ⟨t, r, h1, h2, h3, h4⟩ := shifted_run sh m v q hv
  have hpd := piD_bounds
  have hr : |r| ≤ 2 ^ 20 + 5 := by
    have a1 := hv.2.2
    have a2 := (shift_abs sh).1
    rw [abs_le] at *
    norm_num at *
    constructor <;> linarith
  have hdiv : |r / (2 * piD)| < 2 ^ (18 + 1 : ℤ) := by
    rw [abs_div, abs_of_pos (by linarith : (0 : ℚ) < 2 * piD), div_lt_iff₀ (by linarith)]
    norm_num at *; linarith
  obtain ⟨w, e1, e2, _⟩ := round_small m hdiv (by norm_num) (by norm_num)
  obtain ⟨n, d1, d2, d3⟩ := num_div m (x := t) (y := .dbl (.fin (2 * piD))) h2 trivial h3 rfl (by linarith)
  rw [e1] at d2
  refine ⟨w, ?_, ?_⟩
  · unfold FIv.turns
    rw [run_bind_ok h1, run_bind_ok (show FIv.ndiv t (.dbl (.fin (2 * piD))) m = (.ok n, m) from
      run_op_ok (f := fun m => Num.div m t _) d1)]
    exact run_op_ok (f := fun _ => n.toDbl) (by rw [toDbl_of_small d3, d2])
  · have hpi := Real.pi_gt_three
    have hpi4 := Real.pi_le_four
    have e2' : |(w : ℝ) - r / (2 * piD)| ≤ 2 ^ (-34 : ℤ) := by
      have := (Rat.cast_le (K := ℝ)).mpr e2
      push_cast at this
      norm_num at this ⊢
      exact this
    have h4' : |(r : ℝ) - (q + sh.val)| ≤ 2 ^ (-32 : ℤ) := by
      have := (Rat.cast_le (K := ℝ)).mpr h4
      push_cast at this
      norm_num at this ⊢
      exact this
    have hP : (3 : ℝ) < piD ∧ (piD : ℝ) < 4 := ⟨by exact_mod_cast hpd.1, by exact_mod_cast hpd.2⟩
    have herr := piD_err
    have hsh := shift_err sh
    have hsh4 := (shift_abs sh).2
    have hq : |(q : ℝ)| ≤ 2 ^ 20 := by
      have := hv.2.2
      exact_mod_cast this
    generalize (piD : ℝ) = P at *
    generalize Real.pi = π at *
    -- the rounded sum against the exact one
    have s1 : |(r : ℝ) - (q + sh.real)| ≤ 2 ^ (-32 : ℤ) + 2 ^ (-50 : ℤ) := by
      have : (r : ℝ) - (q + sh.real) = (r - (q + sh.val)) + (sh.val - sh.real) := by ring
      rw [this]; exact (abs_add_le _ _).trans (add_le_add h4' hsh)
    have s2 : |(r : ℝ) / (2 * P) - (q + sh.real) / (2 * P)| ≤ (2 ^ (-32 : ℤ) + 2 ^ (-50 : ℤ)) / 6 := by
      rw [← sub_div, abs_div, abs_of_pos (by linarith : (0 : ℝ) < 2 * P)]
      gcongr; linarith
    have s3 : |(q + sh.real) / (2 * P) - (q + sh.real) / (2 * π)| ≤ (2 ^ 20 + 4) * 2 ^ (-50 : ℤ) / 18 := by
      have e : (q + sh.real) / (2 * P) - (q + sh.real) / (2 * π) = (q + sh.real) * (π - P) / (2 * P * π) := by
        have h1 : P ≠ 0 := by linarith [hP.1]
        have h2 : π ≠ 0 := by linarith
        field_simp
      have hPp : 0 < P := by linarith [hP.1]
      have hπp : 0 < π := by linarith
      rw [e, abs_div, abs_mul, abs_of_pos (by positivity : (0 : ℝ) < 2 * P * π)]
      have b1 : |(q : ℝ) + sh.real| ≤ 2 ^ 20 + 4 := (abs_add_le _ _).trans (add_le_add hq hsh4)
      have b2 : |π - P| ≤ 2 ^ (-50 : ℤ) := by rw [abs_sub_comm]; exact herr
      have b3 : (18 : ℝ) ≤ 2 * P * π := by nlinarith [hP.1]
      gcongr
    have e : (w : ℝ) - (q + sh.real) / (2 * π) = (w - r / (2 * P)) + ((r / (2 * P) - (q + sh.real) / (2 * P)) +
        ((q + sh.real) / (2 * P) - (q + sh.real) / (2 * π))) := by ring
    rw [e]
    refine (abs_add_le _ _).trans ((add_le_add e2' ((abs_add_le _ _).trans (add_le_add s2 s3))).trans ?_)
    norm_num

/-- What the test `ceil(..) <= floor(..)` tells about the maxima of `cos (x + s)`. -/
theorem extremum_run (sh : Shift) (m : Mode) (lo hi : Num) (a b : ℚ) (ha : lo.Moderate a) (hb : hi.Moderate b)
    (hab : a ≤ b) :
    ∃ t : Bool, FIv.extremumInside sh lo hi m = (.ok t, m) ∧
      (t = false → ∀ x : ℝ, a ≤ x → x ≤ b →
        Real.cos (x + sh.real) ≤ max (Real.cos (a + sh.real)) (Real.cos (b + sh.real)) ∨
        1 - 2 ^ (-57 : ℤ) ≤ max (Real.cos (a + sh.real)) (Real.cos (b + sh.real))) ∧
      (t = true → ∃ x : ℝ, a ≤ x ∧ x ≤ b ∧ 1 - 2 ^ (-57 : ℤ) ≤ Real.cos (x + sh.real)) := by
  obtain ⟨p, hp, ep⟩ := turns_run sh m lo a ha
  obtain ⟨q, hq, eq⟩ := turns_run sh m hi b hb
  have hpi := Real.pi_gt_three
  have hpi4 := Real.pi_le_four
  have h2p : (0 : ℝ) < 2 * Real.pi := by linarith
  have hεπ : (2 : ℝ) ^ (-32 : ℤ) * (2 * Real.pi) ≤ 2 ^ (-29 : ℤ) := by norm_num; linarith
  have near : ∀ {x : ℝ} {k : ℤ}, |x - (k * (2 * Real.pi) - sh.real)| ≤ 2 ^ (-29 : ℤ) →
      1 - 2 ^ (-57 : ℤ) ≤ Real.cos (x + sh.real) := by
    intro x k h
    refine le_trans ?_ (cos_near_max h)
    norm_num
  rw [abs_le] at ep eq
  have eqn : ∀ (u : ℝ) (w : ℝ), u - (w + sh.real) / (2 * Real.pi) =
      (u * (2 * Real.pi) - (w + sh.real)) / (2 * Real.pi) := by intro u w; field_simp
  rw [eqn, le_div_iff₀ h2p, div_le_iff₀ h2p] at ep eq
  have key : decide (⌈p⌉ ≤ ⌊q⌋) = true ↔ ∃ k : ℤ, p ≤ k ∧ k ≤ q := by
    rw [decide_eq_true_eq]
    constructor
    · intro h; exact ⟨⌈p⌉, Int.le_ceil p, by
        have h1 := Int.floor_le q
        have h2 : ((⌈p⌉ : ℤ) : ℚ) ≤ ((⌊q⌋ : ℤ) : ℚ) := by exact_mod_cast h
        linarith⟩
    · rintro ⟨k, h1, h2⟩; exact (Int.ceil_le.mpr h1).trans (Int.le_floor.mpr h2)
  refine ⟨decide (⌈p⌉ ≤ ⌊q⌋), ?_, ?_, ?_⟩
  · unfold FIv.extremumInside
    rw [run_bind_ok hp, run_bind_ok hq]
    show (Except.ok (decide (((⌈p⌉ : ℤ) : ℚ) ≤ ((⌊q⌋ : ℤ) : ℚ))), m) = _
    congr 2
    exact decide_eq_decide.mpr Int.cast_le
  · intro ht x hax hxb
    have hno : ¬ ∃ k : ℤ, p ≤ k ∧ k ≤ q := by rw [← key, ht]; simp
    by_cases hk : ∃ k : ℤ, (a : ℝ) ≤ k * (2 * Real.pi) - sh.real ∧ k * (2 * Real.pi) - sh.real ≤ b
    · right
      obtain ⟨k, k1, k2⟩ := hk
      by_cases h : p ≤ k
      · have h' : q < k := by by_contra hc; exact hno ⟨k, h, not_lt.mp hc⟩
        have hr : (q : ℝ) < k := by exact_mod_cast h'
        have hr' := mul_lt_mul_of_pos_right hr h2p
        have : |(b : ℝ) - (k * (2 * Real.pi) - sh.real)| ≤ 2 ^ (-29 : ℤ) := by
          rw [abs_le]; constructor <;> linarith
        exact le_trans (near this) (le_max_right _ _)
      · have hr : (k : ℝ) < p := by exact_mod_cast not_le.mp h
        have hr' := mul_lt_mul_of_pos_right hr h2p
        have : |(a : ℝ) - (k * (2 * Real.pi) - sh.real)| ≤ 2 ^ (-29 : ℤ) := by
          rw [abs_le]; constructor <;> linarith
        exact le_trans (near this) (le_max_left _ _)
    · left; exact cos_le_max_of_no_max hax hxb hk
  · intro ht
    obtain ⟨k, k1, k2⟩ := key.mp ht
    have r1 : (p : ℝ) * (2 * Real.pi) ≤ k * (2 * Real.pi) :=
      mul_le_mul_of_nonneg_right (by exact_mod_cast k1) h2p.le
    have r2 : (k : ℝ) * (2 * Real.pi) ≤ q * (2 * Real.pi) :=
      mul_le_mul_of_nonneg_right (by exact_mod_cast k2) h2p.le
    have hab' : (a : ℝ) ≤ b := by exact_mod_cast hab
    have hpos : (0 : ℝ) ≤ 2 ^ (-29 : ℤ) := by positivity
    rcases le_total (k * (2 * Real.pi) - sh.real) a with h | h
    · refine ⟨a, le_refl _, hab', ?_⟩
      have : |(a : ℝ) - (k * (2 * Real.pi) - sh.real)| ≤ 2 ^ (-29 : ℤ) := by
        rw [abs_le]; constructor <;> linarith
      exact near this
    · rcases le_total (k * (2 * Real.pi) - sh.real) b with h' | h'
      · refine ⟨k * (2 * Real.pi) - sh.real, h, h', ?_⟩
        have : |(k * (2 * Real.pi) - sh.real) - (k * (2 * Real.pi) - sh.real)| ≤ 2 ^ (-29 : ℤ) := by
          rw [sub_self, abs_zero]; exact hpos
        exact near this
      · refine ⟨b, hab', le_refl _, ?_⟩
        have : |(b : ℝ) - (k * (2 * Real.pi) - sh.real)| ≤ 2 ^ (-29 : ℤ) := by
          rw [abs_le]; constructor <;> linarith
        exact near this

/-- `P` is a double in `[-1, 1]` whose neighbours bracket `r`. -/
def Brackets (P : ℚ) (r : ℝ) : Prop :=
  |P| ≤ 1 ∧ ((floorTo (P - tinyQ) : ℚ) : ℝ) ≤ r ∧ r ≤ ((ceilTo (P + tinyQ) : ℚ) : ℝ)

theorem Brackets.neg {P : ℚ} {r : ℝ} (h : Brackets P r) : Brackets (-P) (-r) := by
  obtain ⟨h1, h2, h3⟩ := h
  refine ⟨by rwa [abs_neg], ?_, ?_⟩
  · have e : floorTo (-P - tinyQ) = -ceilTo (P + tinyQ) := by rw [ceilTo_eq]; ring_nf
    rw [e]; push_cast; linarith
  · have e : ceilTo (-P + tinyQ) = -floorTo (P - tinyQ) := by rw [ceilTo_eq]; ring_nf
    rw [e]; push_cast; linarith

/-- The neighbours of the larger of two bracketed values bracket the larger of the exact values, tightly. -/
theorem bracket_max {P Q : ℚ} {p q : ℝ} (hP : Brackets P p) (hQ : Brackets Q q) :
    max p q ≤ ((ceilTo (max P Q + tinyQ) : ℚ) : ℝ) ∧
    ((ceilTo (max P Q + tinyQ) : ℚ) : ℝ) ≤ max p q + 2 ^ (-50 : ℤ) ∧
    ((floorTo (max P Q - tinyQ) : ℚ) : ℝ) ≤ max p q ∧
    max p q ≤ ((floorTo (max P Q - tinyQ) : ℚ) : ℝ) + 2 ^ (-50 : ℤ) := by
  have cast : ∀ {x y : ℚ}, x ≤ y → (x : ℝ) ≤ y := fun h => by exact_mod_cast h
  have wid : ∀ {R : ℚ}, |R| ≤ 1 →
      ((ceilTo (R + tinyQ) : ℚ) : ℝ) ≤ (floorTo (R - tinyQ) : ℚ) + 2 ^ (-50 : ℤ) := by
    intro R hR
    have h1 := cast (nu_le hR)
    have h2 := cast (nd_ge hR)
    push_cast at h1 h2
    norm_num at h1 h2 ⊢
    linarith
  have c1 : ((ceilTo (P + tinyQ) : ℚ) : ℝ) ≤ (ceilTo (max P Q + tinyQ) : ℚ) :=
    cast (ceilTo_mono (by have := le_max_left P Q; linarith))
  have c2 : ((ceilTo (Q + tinyQ) : ℚ) : ℝ) ≤ (ceilTo (max P Q + tinyQ) : ℚ) :=
    cast (ceilTo_mono (by have := le_max_right P Q; linarith))
  obtain ⟨p1, p2, p3⟩ := hP
  obtain ⟨q1, q2, q3⟩ := hQ
  have hmax : max p q ≤ ((ceilTo (max P Q + tinyQ) : ℚ) : ℝ) := max_le (p3.trans c1) (q3.trans c2)
  have hlow : ((floorTo (max P Q - tinyQ) : ℚ) : ℝ) ≤ max p q := by
    rcases max_choice P Q with h | h <;> rw [h]
    · exact p2.trans (le_max_left _ _)
    · exact q2.trans (le_max_right _ _)
  have hW : |max P Q| ≤ 1 := by rcases max_choice P Q with h | h <;> rw [h] <;> assumption
  exact ⟨hmax, (wid hW).trans (by linarith), hlow, hmax.trans (wid hW)⟩

theorem max2_dbl (P Q : ℚ) : (Num.dbl (.fin P)).max2 (.dbl (.fin Q)) = .dbl (.fin (max P Q)) := by
  unfold Num.max2 Num.lt
  simp only [Num.val, Dbl.lt, decide_eq_true_eq]
  split_ifs with h
  · rw [max_eq_right h.le]
  · rw [max_eq_left (not_lt.mp h)]

theorem min2_dbl (P Q : ℚ) : (Num.dbl (.fin P)).min2 (.dbl (.fin Q)) = .dbl (.fin (min P Q)) := by
  unfold Num.min2 Num.lt
  simp only [Num.val, Dbl.lt, decide_eq_true_eq]
  split_ifs with h
  · rw [min_eq_right h.le]
  · rw [min_eq_left (not_lt.mp h)]

/-- Both directions of rounding for the endpoint that holds the largest value of `cos (x + s)`. -/
theorem max_end (sh : Shift) (m : Mode) (lo hi : Num) (a b : ℚ) (ha : lo.Moderate a) (hb : hi.Moderate b)
    (hab : a ≤ b) (P Q : ℚ) (hP : Brackets P (Real.cos (a + sh.real))) (hQ : Brackets Q (Real.cos (b + sh.real))) :
    ∃ t : Bool, FIv.extremumInside sh lo hi m = (.ok t, m) ∧
      (∀ x : ℝ, a ≤ x → x ≤ b → Real.cos (x + sh.real) ≤ ((if t then 1 else ceilTo (max P Q + tinyQ) : ℚ) : ℝ)) ∧
      (∃ x : ℝ, a ≤ x ∧ x ≤ b ∧
        ((if t then 1 else ceilTo (max P Q + tinyQ) : ℚ) : ℝ) ≤ Real.cos (x + sh.real) + 2 ^ (-50 : ℤ)) ∧
      (∀ x : ℝ, a ≤ x → x ≤ b →
        Real.cos (x + sh.real) ≤ ((if t then 1 else floorTo (max P Q - tinyQ) : ℚ) : ℝ) + 2 ^ (-49 : ℤ)) ∧
      (∃ x : ℝ, a ≤ x ∧ x ≤ b ∧
        ((if t then 1 else floorTo (max P Q - tinyQ) : ℚ) : ℝ) ≤ Real.cos (x + sh.real) + 2 ^ (-50 : ℤ)) := by
  obtain ⟨t, h1, h2, h3⟩ := extremum_run sh m lo hi a b ha hb hab
  refine ⟨t, h1, ?_⟩
  have hab' : (a : ℝ) ≤ b := by exact_mod_cast hab
  cases t with
  | true =>
    obtain ⟨x, x1, x2, x3⟩ := h3 rfl
    simp only [if_true]
    push_cast
    have hc : (1 : ℝ) ≤ Real.cos (x + sh.real) + 2 ^ (-50 : ℤ) := by norm_num at x3 ⊢; linarith
    refine ⟨fun y _ _ => Real.cos_le_one _, ⟨x, x1, x2, hc⟩, fun y _ _ => ?_, ⟨x, x1, x2, hc⟩⟩
    have := Real.cos_le_one (y + sh.real)
    norm_num; linarith
  | false =>
    simp only [Bool.false_eq_true, if_false]
    obtain ⟨b1, b2, b3, b4⟩ := bracket_max hP hQ
    have att : ∃ x : ℝ, a ≤ x ∧ x ≤ b ∧
        max (Real.cos (a + sh.real)) (Real.cos (b + sh.real)) = Real.cos (x + sh.real) := by
      rcases max_choice (Real.cos (a + sh.real)) (Real.cos (b + sh.real)) with h | h
      · exact ⟨a, le_refl _, hab', h⟩
      · exact ⟨b, hab', le_refl _, h⟩
    obtain ⟨x, x1, x2, x3⟩ := att
    refine ⟨fun y y1 y2 => ?_, ⟨x, x1, x2, by rw [← x3]; exact b2⟩, fun y y1 y2 => ?_, ⟨x, x1, x2, ?_⟩⟩
    · rcases h2 rfl y y1 y2 with h | h
      · exact h.trans b1
      · have hge : 1 - 2 ^ (-56 : ℤ) ≤ ceilTo (max P Q + tinyQ) := by
          have : (1 - 2 ^ (-56 : ℤ) : ℝ) ≤ ((ceilTo (max P Q + tinyQ) : ℚ) : ℝ) := by
            refine le_trans ?_ (h.trans b1); norm_num
          have e : (1 - 2 ^ (-56 : ℤ) : ℝ) = ((1 - 2 ^ (-56 : ℤ) : ℚ) : ℝ) := by push_cast; rfl
          rw [e] at this
          exact_mod_cast this
        have := isF_ge_one (ceilTo_isF _) hge
        exact (Real.cos_le_one _).trans (by exact_mod_cast this)
    · rcases h2 rfl y y1 y2 with h | h
      · refine (h.trans b4).trans (add_le_add le_rfl ?_); norm_num
      · have h5 := h.trans b4
        refine (Real.cos_le_one _).trans ?_
        norm_num at h5 ⊢; linarith
    · rw [← x3]; refine b3.trans ?_; norm_num

theorem trigEnd_run {sh : Shift} {m : Mode} {lo hi : Num} {t : Bool}
    (h : FIv.extremumInside sh lo hi m = (.ok t, m)) (ext : ℤ) (next : Dbl → Dbl) (V : ℚ) :
    FIv.trigEnd sh lo hi ext next (.dbl (.fin V)) m =
      (.ok (if t then .dbl (.fin ext) else .dbl (next (.fin V))), m) := by
  unfold FIv.trigEnd
  rw [run_bind_ok h]
  cases t <;> rfl

/-- Both directions of rounding for the endpoint that holds the smallest value of `-cos (x + s)`. -/
theorem min_end (sh : Shift) (m : Mode) (lo hi : Num) (a b : ℚ) (ha : lo.Moderate a) (hb : hi.Moderate b)
    (hab : a ≤ b) (P Q : ℚ) (hP : Brackets P (-Real.cos (a + sh.real))) (hQ : Brackets Q (-Real.cos (b + sh.real))) :
    ∃ t : Bool, FIv.extremumInside sh lo hi m = (.ok t, m) ∧
      (∀ x : ℝ, a ≤ x → x ≤ b → ((if t then -1 else floorTo (min P Q - tinyQ) : ℚ) : ℝ) ≤ -Real.cos (x + sh.real)) ∧
      (∃ x : ℝ, a ≤ x ∧ x ≤ b ∧
        -Real.cos (x + sh.real) ≤ ((if t then -1 else floorTo (min P Q - tinyQ) : ℚ) : ℝ) + 2 ^ (-50 : ℤ)) ∧
      (∀ x : ℝ, a ≤ x → x ≤ b →
        ((if t then -1 else ceilTo (min P Q + tinyQ) : ℚ) : ℝ) ≤ -Real.cos (x + sh.real) + 2 ^ (-49 : ℤ)) ∧
      (∃ x : ℝ, a ≤ x ∧ x ≤ b ∧
        -Real.cos (x + sh.real) ≤ ((if t then -1 else ceilTo (min P Q + tinyQ) : ℚ) : ℝ) + 2 ^ (-50 : ℤ)) := by
  have hP' := hP.neg
  have hQ' := hQ.neg
  rw [neg_neg] at hP' hQ'
  obtain ⟨t, h1, h2, ⟨x, x1, x2, x3⟩, h4, ⟨y, y1, y2, y3⟩⟩ := max_end sh m lo hi a b ha hb hab _ _ hP' hQ'
  have e1 : ceilTo (max (-P) (-Q) + tinyQ) = -floorTo (min P Q - tinyQ) := by
    rw [max_neg_neg, ceilTo_eq]; ring_nf
  have e2 : floorTo (max (-P) (-Q) - tinyQ) = -ceilTo (min P Q + tinyQ) := by
    rw [max_neg_neg, ceilTo_eq]; ring_nf
  rw [e1] at h2 x3
  rw [e2] at h4 y3
  refine ⟨t, h1, ?_⟩
  cases t <;> simp only [if_true, Bool.false_eq_true, if_false] at h2 x3 h4 y3 ⊢ <;> push_cast at h2 x3 h4 y3 ⊢ <;>
    refine ⟨fun z z1 z2 => ?_, ⟨x, x1, x2, ?_⟩, fun z z1 z2 => ?_, ⟨y, y1, y2, ?_⟩⟩ <;>
    first
      | linarith [h2 z z1 z2]
      | linarith [h4 z z1 z2]
      | linarith

/-- `F` is the exact function, `shMin`/`shMax` the shifts that carry its minima/maxima to the maxima of the cosine. -/
structure TrigShape (F : ℝ → ℝ) (shMin shMax : Shift) : Prop where
  mx : ∀ x, F x = Real.cos (x + shMax.real)
  mn : ∀ x, F x = -Real.cos (x + shMin.real)

theorem sinShape : TrigShape Real.sin .plusHalf .minusHalf where
  mx x := by simp only [FIv.Shift.real]; rw [← sub_eq_add_neg, Real.cos_sub_pi_div_two]
  mn x := by simp only [FIv.Shift.real]; rw [Real.cos_add_pi_div_two, neg_neg]

theorem cosShape : TrigShape Real.cos .minusPi .none where
  mx x := by simp [FIv.Shift.real]
  mn x := by simp only [FIv.Shift.real]; rw [← sub_eq_add_neg, Real.cos_sub_pi, neg_neg]

theorem brackets_of_trigOK {f : Mode → Num → Except Err Num} {F : ℝ → ℝ} (hf : TrigOK f F) (m : Mode) {n : Num}
    {q : ℚ} (hn : n.Moderate q) : ∃ y : ℚ, f m n = .ok (.dbl (.fin y)) ∧ Brackets y (F q) := by
  obtain ⟨y, h1, _, h3, h4, h5⟩ := hf m n q (hn.1.mono (by norm_num)) hn.2.1
  rw [nextDown_small h3] at h4
  rw [nextUp_small h3] at h5
  exact ⟨y, h1, h3, h4, h5⟩

/-- The whole computation for a proper interval. -/
theorem trig_proper {f : Mode → Num → Except Err Num} {F : ℝ → ℝ} {shMin shMax : Shift} (hf : TrigOK f F)
    (hS : TrigShape F shMin shMax) (X : FIv) (s : Mode) (a b : ℚ) (ha : X.a.Moderate a) (hb : X.b.Moderate b)
    (hab : a ≤ b) :
    ∃ u v : ℚ, FIv.trig f shMin shMax X s = (.ok ⟨X.cls, .dbl (.fin u), .dbl (.fin v)⟩, s) ∧
      (∀ x : ℝ, a ≤ x → x ≤ b → (u : ℝ) ≤ F x ∧ F x ≤ v) ∧
      (∃ x : ℝ, a ≤ x ∧ x ≤ b ∧ F x ≤ u + 2 ^ (-50 : ℤ)) ∧ (∃ x : ℝ, a ≤ x ∧ x ≤ b ∧ v ≤ F x + 2 ^ (-50 : ℤ)) := by
  have hle : X.a.le X.b = true := by
    unfold Num.le; rw [ha.2.1, hb.2.1]; simpa [Dbl.le] using hab
  obtain ⟨eL, eH, eV⟩ := pro_of_le hle
  replace hb : X.proHi.Moderate b := by
    rcases eH with h | h
    · rw [h]; exact hb
    · rw [h] at eV ⊢
      have : a = b := by
        have := eV
        rw [ha.2.1, hb.2.1] at this
        exact Dbl.fin.inj this
      exact this ▸ ha
  obtain ⟨P, p1, hP⟩ := brackets_of_trigOK hf s ha
  obtain ⟨Q, q1, hQ⟩ := brackets_of_trigOK hf s hb
  obtain ⟨t, t1, t2, ⟨x, x1, x2, x3⟩, _, _⟩ := max_end shMax .up X.a X.proHi a b ha hb hab P Q
    (hS.mx a ▸ hP) (hS.mx b ▸ hQ)
  obtain ⟨t', t1', t2', ⟨y, y1, y2, y3⟩, _, _⟩ := min_end shMin .down X.a X.proHi a b ha hb hab P Q
    (hS.mn a ▸ hP) (hS.mn b ▸ hQ)
  have hmax1 : |max P Q| ≤ 1 := by rcases max_choice P Q with h | h <;> rw [h]; exacts [hP.1, hQ.1]
  have hmin1 : |min P Q| ≤ 1 := by rcases min_choice P Q with h | h <;> rw [h]; exacts [hP.1, hQ.1]
  refine ⟨if t' then -1 else floorTo (min P Q - tinyQ), if t then 1 else ceilTo (max P Q + tinyQ), ?_, ?_,
    ⟨y, y1, y2, ?_⟩, ⟨x, x1, x2, ?_⟩⟩
  · unfold FIv.trig
    simp only [eL, hle, if_true]
    rw [run_bind_ok (run_op_ok (f := fun m => f m X.a) p1), run_bind_ok (run_op_ok (f := fun m => f m X.proHi) q1)]
    simp only [min2_dbl, max2_dbl]
    rw [run_bind, run_with, trigEnd_run t1']
    simp only
    rw [run_bind, run_with, trigEnd_run t1]
    simp only [nextDown_small hmin1, nextUp_small hmax1]
    cases t <;> cases t' <;> simp <;> rfl
  · intro z z1 z2
    refine ⟨?_, ?_⟩
    · rw [hS.mn]; exact t2' z z1 z2
    · rw [hS.mx]; exact t2 z z1 z2
  · rw [hS.mn]; exact y3
  · rw [hS.mx]; exact x3

/-- The whole computation for an improper interval: the two endpoints (exchanged) are the extrema over the proper
projection, up to `2 ^ -49`. -/
theorem trig_improper {f : Mode → Num → Except Err Num} {F : ℝ → ℝ} {shMin shMax : Shift} (hf : TrigOK f F)
    (hS : TrigShape F shMin shMax) (X : FIv) (hc : X.cls = .kaucher) (s : Mode) (a b : ℚ) (ha : X.b.Moderate a) (hb : X.a.Moderate b)
    (hab : a < b) :
    ∃ u v : ℚ, FIv.trig f shMin shMax X s = (.ok ⟨X.cls, .dbl (.fin v), .dbl (.fin u)⟩, s) ∧
      (∀ x : ℝ, a ≤ x → x ≤ b → u - 2 ^ (-49 : ℤ) ≤ F x ∧ F x ≤ v + 2 ^ (-49 : ℤ)) ∧
      (∃ x : ℝ, a ≤ x ∧ x ≤ b ∧ F x ≤ u + 2 ^ (-50 : ℤ)) ∧ (∃ x : ℝ, a ≤ x ∧ x ≤ b ∧ v ≤ F x + 2 ^ (-50 : ℤ)) := by
  obtain ⟨P, p1, hP⟩ := brackets_of_trigOK hf s ha
  obtain ⟨Q, q1, hQ⟩ := brackets_of_trigOK hf s hb
  have hle : ¬ X.a.le X.b = true := by
    unfold Num.le; rw [ha.2.1, hb.2.1]; simpa [Dbl.le] using hab
  obtain ⟨eL, eH⟩ := pro_of_lt hc (by unfold Num.lt; rw [ha.2.1, hb.2.1]; simpa [Dbl.lt] using hab)
  obtain ⟨t, t1, _, _, t2, ⟨x, x1, x2, x3⟩⟩ := max_end shMax .down X.b X.a a b ha hb hab.le P Q
    (hS.mx a ▸ hP) (hS.mx b ▸ hQ)
  obtain ⟨t', t1', _, _, t2', ⟨y, y1, y2, y3⟩⟩ := min_end shMin .up X.b X.a a b ha hb hab.le P Q
    (hS.mn a ▸ hP) (hS.mn b ▸ hQ)
  have hmax1 : |max P Q| ≤ 1 := by rcases max_choice P Q with h | h <;> rw [h]; exacts [hP.1, hQ.1]
  have hmin1 : |min P Q| ≤ 1 := by rcases min_choice P Q with h | h <;> rw [h]; exacts [hP.1, hQ.1]
  refine ⟨if t' then -1 else ceilTo (min P Q + tinyQ), if t then 1 else floorTo (max P Q - tinyQ), ?_, ?_,
    ⟨y, y1, y2, ?_⟩, ⟨x, x1, x2, ?_⟩⟩
  · unfold FIv.trig
    simp only [eL, eH, if_neg hle]
    rw [run_bind_ok (run_op_ok (f := fun m => f m X.b) p1), run_bind_ok (run_op_ok (f := fun m => f m X.a) q1)]
    simp only [min2_dbl, max2_dbl]
    rw [run_bind, run_with, trigEnd_run t1]
    simp only
    rw [run_bind, run_with, trigEnd_run t1']
    simp only [nextDown_small hmax1, nextUp_small hmin1]
    cases t <;> cases t' <;> simp <;> rfl
  · intro z z1 z2
    refine ⟨?_, ?_⟩
    · rw [hS.mn]; linarith [t2' z z1 z2]
    · rw [hS.mx]; exact t2 z z1 z2
  · rw [hS.mn]; exact y3
  · rw [hS.mx]; exact x3

/-- The full statement of C29 (enclosure part) for a function `op` of the library meant to compute `F`. -/
def C29_statement (op : FIv → M FIv) (F : ℝ → ℝ) : Prop :=
  ∀ (X : FIv) (s : Mode) (a b : ℚ), X.a.IntsLe (2 ^ 52) → X.b.IntsLe (2 ^ 52) → X.a.val = .fin a → X.b.val = .fin b →
    a ≤ b → ∃ Y, op X s = (.ok Y, s) ∧ ∀ x : ℝ, X.Mem x → Y.Mem (F x)

theorem mem_fin {X : FIv} {a b : ℚ} (ha : X.a.val = .fin a) (hb : X.b.val = .fin b) (x : ℝ) :
    X.Mem x ↔ (a : ℝ) ≤ x ∧ x ≤ b := by
  unfold FIv.Mem; rw [ha, hb]; rfl

/-- C29 for `sin` and `|x| ≤ 2 ^ 20`: whatever the ambient rounding mode, the result contains the sine of every member
and each endpoint exceeds the exact extremum by at most `2 ^ -50`. -/
theorem C29_sin_encloses_partial (lm : Libm) (hf : TrigOK lm.sin Real.sin) (X : FIv) (s : Mode) (a b : ℚ)
    (ha : X.a.Moderate a) (hb : X.b.Moderate b) (hab : a ≤ b) :
    ∃ u v : ℚ, FIv.sin lm X s = (.ok ⟨X.cls, .dbl (.fin u), .dbl (.fin v)⟩, s) ∧
      (∀ x : ℝ, X.Mem x → (⟨X.cls, .dbl (.fin u), .dbl (.fin v)⟩ : FIv).Mem (Real.sin x)) ∧
      (∃ x : ℝ, X.Mem x ∧ Real.sin x ≤ u + 2 ^ (-50 : ℤ)) ∧ (∃ x : ℝ, X.Mem x ∧ v ≤ Real.sin x + 2 ^ (-50 : ℤ)) := by
  obtain ⟨u, v, h1, h2, ⟨x, x1, x2, x3⟩, ⟨y, y1, y2, y3⟩⟩ := trig_proper hf sinShape X s a b ha hb hab
  have hm := mem_fin (X := X) ha.2.1 hb.2.1
  exact ⟨u, v, h1, fun z hz => h2 z ((hm z).mp hz).1 ((hm z).mp hz).2, ⟨x, (hm x).mpr ⟨x1, x2⟩, x3⟩,
    ⟨y, (hm y).mpr ⟨y1, y2⟩, y3⟩⟩

/-- C29 for `cos` and `|x| ≤ 2 ^ 20`. -/
theorem C29_cos_encloses_partial (lm : Libm) (hf : TrigOK lm.cos Real.cos) (X : FIv) (s : Mode) (a b : ℚ)
    (ha : X.a.Moderate a) (hb : X.b.Moderate b) (hab : a ≤ b) :
    ∃ u v : ℚ, FIv.cos lm X s = (.ok ⟨X.cls, .dbl (.fin u), .dbl (.fin v)⟩, s) ∧
      (∀ x : ℝ, X.Mem x → (⟨X.cls, .dbl (.fin u), .dbl (.fin v)⟩ : FIv).Mem (Real.cos x)) ∧
      (∃ x : ℝ, X.Mem x ∧ Real.cos x ≤ u + 2 ^ (-50 : ℤ)) ∧ (∃ x : ℝ, X.Mem x ∧ v ≤ Real.cos x + 2 ^ (-50 : ℤ)) := by
  obtain ⟨u, v, h1, h2, ⟨x, x1, x2, x3⟩, ⟨y, y1, y2, y3⟩⟩ := trig_proper hf cosShape X s a b ha hb hab
  have hm := mem_fin (X := X) ha.2.1 hb.2.1
  exact ⟨u, v, h1, fun z hz => h2 z ((hm z).mp hz).1 ((hm z).mp hz).2, ⟨x, (hm x).mpr ⟨x1, x2⟩, x3⟩,
    ⟨y, (hm y).mpr ⟨y1, y2⟩, y3⟩⟩

/-- C29 for improper intervals: `sin` and `cos` of the interval with exchanged endpoints carry the extrema over the
proper projection, exchanged, up to `2 ^ -49`. -/
theorem C29_improper_partial (lm : Libm) (hs : TrigOK lm.sin Real.sin) (hc : TrigOK lm.cos Real.cos) (X : FIv)
    (hX : X.cls = .kaucher) (s : Mode) (a b : ℚ) (ha : X.b.Moderate a) (hb : X.a.Moderate b) (hab : a < b) :
    (∃ u v : ℚ, FIv.sin lm X s = (.ok ⟨X.cls, .dbl (.fin v), .dbl (.fin u)⟩, s) ∧
      (∀ x : ℝ, a ≤ x → x ≤ b → u - 2 ^ (-49 : ℤ) ≤ Real.sin x ∧ Real.sin x ≤ v + 2 ^ (-49 : ℤ)) ∧
      (∃ x : ℝ, a ≤ x ∧ x ≤ b ∧ Real.sin x ≤ u + 2 ^ (-50 : ℤ)) ∧
      (∃ x : ℝ, a ≤ x ∧ x ≤ b ∧ v ≤ Real.sin x + 2 ^ (-50 : ℤ))) ∧
    (∃ u v : ℚ, FIv.cos lm X s = (.ok ⟨X.cls, .dbl (.fin v), .dbl (.fin u)⟩, s) ∧
      (∀ x : ℝ, a ≤ x → x ≤ b → u - 2 ^ (-49 : ℤ) ≤ Real.cos x ∧ Real.cos x ≤ v + 2 ^ (-49 : ℤ)) ∧
      (∃ x : ℝ, a ≤ x ∧ x ≤ b ∧ Real.cos x ≤ u + 2 ^ (-50 : ℤ)) ∧
      (∃ x : ℝ, a ≤ x ∧ x ≤ b ∧ v ≤ Real.cos x + 2 ^ (-50 : ℤ))) :=
  ⟨trig_improper hs sinShape X hX s a b ha hb hab, trig_improper hc cosShape X hX s a b ha hb hab⟩

/-- C29 is false for large arguments: `cos([3141592653589900, 3141592653589901])` contains the maximum at
`500000000000017 * 2 * pi`, but the position computed with the double `PI` lies below the interval, so the upper
endpoint stays below one. -/
theorem C29_large_argument_false (lm : Libm) (hf : TrigOK lm.cos Real.cos) :
    ¬ C29_statement (FIv.cos lm) Real.cos := by
  intro h
  set X : FIv := ⟨.classical, .dbl (.fin 3141592653589900), .dbl (.fin 3141592653589901)⟩ with hX
  obtain ⟨Y, hY, hm⟩ := h X .nearest 3141592653589900 3141592653589901 trivial trivial rfl rfl (by norm_num)
  have p1 := Real.pi_gt_d20
  have p2 := Real.pi_lt_d20
  have l1 : (3141592653589900.05 : ℝ) < (500000000000017 : ℤ) * (2 * Real.pi) := by push_cast; norm_num at p1 ⊢; linarith
  have l2 : ((500000000000017 : ℤ) : ℝ) * (2 * Real.pi) < 3141592653589900.06 := by push_cast; norm_num at p2 ⊢; linarith
  -- the maximum is a member
  have hmem := hm ((500000000000017 : ℤ) * (2 * Real.pi))
    ((mem_fin (X := X) rfl rfl _).mpr ⟨by push_cast at l1 ⊢; linarith, by push_cast at l2 ⊢; linarith⟩)
  rw [Real.cos_int_mul_two_pi] at hmem
  -- the library values
  obtain ⟨P, e1, _, hP1, hP2, hP3⟩ := hf .nearest (.dbl (.fin 3141592653589900)) 3141592653589900 trivial rfl
  obtain ⟨Q, e2, _, hQ1, hQ2, hQ3⟩ := hf .nearest (.dbl (.fin 3141592653589901)) 3141592653589901 trivial rfl
  rw [nextDown_small hP1] at hP2
  rw [nextUp_small hP1] at hP3
  rw [nextDown_small hQ1] at hQ2
  rw [nextUp_small hQ1] at hQ3
  have bP : Brackets P (Real.cos ((3141592653589900 : ℚ) : ℝ)) := ⟨hP1, hP2, hP3⟩
  have bQ : Brackets Q (Real.cos ((3141592653589901 : ℚ) : ℝ)) := ⟨hQ1, hQ2, hQ3⟩
  obtain ⟨_, b2, _, _⟩ := bracket_max bP bQ
  -- both are well below one
  have small : ∀ d : ℝ, 0.05 ≤ |d| → |d| ≤ 1 → Real.cos d ≤ 0.9999 := by
    intro d h1 h2
    have hpi := Real.pi_gt_three
    have hpi4 := Real.pi_le_four
    have h3 := Real.cos_le_one_sub_mul_cos_sq (x := d) (by linarith)
    have h4 : (0.0025 : ℝ) ≤ d ^ 2 := by rw [← sq_abs]; nlinarith
    have h5 : (1 / 8 : ℝ) ≤ 2 / Real.pi ^ 2 := by
      rw [div_le_div_iff₀ (by norm_num) (by positivity)]; nlinarith
    nlinarith
  have cP : Real.cos ((3141592653589900 : ℚ) : ℝ) ≤ 0.9999 := by
    have e : Real.cos ((3141592653589900 : ℚ) : ℝ) =
        Real.cos (((3141592653589900 : ℚ) : ℝ) - (500000000000017 : ℤ) * (2 * Real.pi)) := by
      rw [Real.cos_sub_int_mul_two_pi]
    rw [e]
    push_cast at l1 l2 ⊢
    apply small
    · rw [abs_of_nonpos (by linarith)]; linarith
    · rw [abs_of_nonpos (by linarith)]; linarith
  have cQ : Real.cos ((3141592653589901 : ℚ) : ℝ) ≤ 0.9999 := by
    have e : Real.cos ((3141592653589901 : ℚ) : ℝ) =
        Real.cos (((3141592653589901 : ℚ) : ℝ) - (500000000000017 : ℤ) * (2 * Real.pi)) := by
      rw [Real.cos_sub_int_mul_two_pi]
    rw [e]
    push_cast at l1 l2 ⊢
    apply small
    · rw [abs_of_nonneg (by linarith)]; linarith
    · rw [abs_of_nonneg (by linarith)]; linarith
  -- the test of the code for a maximum
  have tr : ∀ q : ℚ, ∃ w : ℚ, q / (2 * piD) ≤ w ∧ (q / (2 * piD) ≤ 500000000000017.5 → w ≤ 500000000000017.5) ∧
      (|q| ≤ 2 ^ 52 → FIv.turns .none (.dbl (.fin q)) .up = (.ok (.fin w), .up)) := by
    intro q
    have hpd := piD_bounds
    refine ⟨ceilTo (q / (2 * piD)), le_ceilTo _, fun hle => ceilTo_le ?_ hle, fun hq => ?_⟩
    · exact ⟨1000000000000035, -1, by norm_num, by norm_num, by norm_num⟩
    · have hd : |q / (2 * piD)| ≤ 2 ^ 52 := by
        rw [abs_div, abs_of_pos (by linarith : (0 : ℚ) < 2 * piD), div_le_iff₀ (by linarith)]
        norm_num at hq ⊢; linarith
      have hr : round .up (q / (2 * piD)) = .fin (ceilTo (q / (2 * piD))) := by
        have hM := two53_le_maxFin
        rw [abs_le] at hd
        have hF : IsF ((2 : ℚ) ^ 52) := ⟨2 ^ 52, 0, by norm_num, by norm_num, by norm_num⟩
        have u1 : ceilTo (q / (2 * piD)) ≤ 2 ^ 52 := ceilTo_le hF hd.2
        have u2 : -(2 ^ 52 : ℚ) ≤ ceilTo (q / (2 * piD)) := hd.1.trans (le_ceilTo _)
        simp only [round]
        rw [if_neg (by norm_num at *; linarith), if_neg (by norm_num at *; linarith)]
      obtain ⟨n, d1, d2, d3⟩ := num_div .up (x := .dbl (.fin q)) (y := .dbl (.fin (2 * piD))) trivial trivial rfl rfl
        (by linarith)
      unfold FIv.turns
      rw [run_bind_ok (show FIv.shifted .none (.dbl (.fin q)) .up = (.ok (.dbl (.fin q)), .up) from rfl),
        run_bind_ok (show FIv.ndiv (.dbl (.fin q)) (.dbl (.fin (2 * piD))) .up = (.ok n, .up) from
          run_op_ok (f := fun m => Num.div m (.dbl (.fin q)) _) d1)]
      refine run_op_ok (f := fun _ => n.toDbl) ?_
      rw [toDbl_of_small d3, d2, hr]
  obtain ⟨p, hp1, _, hp3⟩ := tr 3141592653589900
  obtain ⟨q, _, hq2, hq3⟩ := tr 3141592653589901
  have hpk : (500000000000017 : ℚ) < p := lt_of_lt_of_le (by unfold piD; norm_num) hp1
  have hqk : q ≤ 500000000000017.5 := hq2 (by unfold piD; norm_num)
  have ht : FIv.extremumInside .none (.dbl (.fin 3141592653589900)) (.dbl (.fin 3141592653589901)) .up =
      (.ok false, .up) := by
    unfold FIv.extremumInside
    rw [run_bind_ok (hp3 (by norm_num)), run_bind_ok (hq3 (by norm_num))]
    show (Except.ok (decide (((⌈p⌉ : ℤ) : ℚ) ≤ ((⌊q⌋ : ℤ) : ℚ))), _) = _
    congr 2
    rw [decide_eq_false_iff_not]
    intro hle
    have hle' : ⌈p⌉ ≤ ⌊q⌋ := by exact_mod_cast hle
    have c1 : 500000000000017 < ⌈p⌉ := Int.lt_ceil.mpr (by exact_mod_cast hpk)
    have c2 : ⌊q⌋ < 500000000000018 := Int.floor_lt.mpr (by push_cast; norm_num at hqk ⊢; linarith)
    omega
  -- so the upper endpoint is the neighbour of the larger library value
  have hu : Y.b = .dbl (.fin (ceilTo (max P Q + tinyQ))) := by
    have hmax1 : |max P Q| ≤ 1 := by rcases max_choice P Q with h | h <;> rw [h]; exacts [hP1, hQ1]
    have hle : (Num.dbl (.fin 3141592653589900)).le (Num.dbl (.fin 3141592653589901)) = true := by
      simp [Num.le, Num.val, Dbl.le]; norm_num
    unfold FIv.cos FIv.trig at hY
    simp only [hX, FIv.proLo, FIv.proHi, hle, if_true] at hY
    rw [run_bind_ok (run_op_ok (f := fun m => lm.cos m _) e1), run_bind_ok (run_op_ok (f := fun m => lm.cos m _) e2)] at hY
    simp only [min2_dbl, max2_dbl] at hY
    rw [run_bind, run_with] at hY
    cases hin : (FIv.trigEnd Shift.minusPi (.dbl (.fin 3141592653589900)) (.dbl (.fin 3141592653589901)) (-1) nextDown
        (.dbl (.fin (min P Q))) Mode.down).1 with
    | error e => rw [hin] at hY; simp at hY
    | ok inf =>
      rw [hin] at hY
      simp only at hY
      rw [run_bind, run_with, trigEnd_run ht] at hY
      simp only [Bool.false_eq_true, if_false, nextUp_small hmax1] at hY
      have h1 := congrArg Prod.fst hY
      have h2 : (Except.ok (⟨.classical, inf, .dbl (.fin (ceilTo (max P Q + tinyQ)))⟩ : FIv) : Except Err FIv) = .ok Y := h1
      cases h2; rfl
  have h1 := hmem.2
  rw [hu] at h1
  have h2 : (1 : ℝ) ≤ ((ceilTo (max P Q + tinyQ) : ℚ) : ℝ) := h1
  have h3 := max_le cP cQ
  have h4 : (0.9999 : ℝ) + 2 ^ (-50 : ℤ) < 1 := by norm_num
  exact absurd (h2.trans (b2.trans (add_le_add h3 le_rfl))) (not_le.mpr h4)

/-! ## The same formulas with exact arithmetic -/

/-- The upper endpoint chosen by the code, with exact real arithmetic and the exact `pi`,
/repo/intvalpy/kernel/interval_arithmetics.pyx:300-304, 333-337: `s` is the shift, `F` the function. -/
noncomputable def trigUpper (F : ℝ → ℝ) (s a b : ℝ) : ℝ :=
  if ⌈(a + s) / (2 * Real.pi)⌉ ≤ ⌊(b + s) / (2 * Real.pi)⌋ then 1 else max (F a) (F b)

/-- The lower endpoint, /repo/intvalpy/kernel/interval_arithmetics.pyx:294-298, 327-331. -/
noncomputable def trigLower (F : ℝ → ℝ) (s a b : ℝ) : ℝ :=
  if ⌈(a + s) / (2 * Real.pi)⌉ ≤ ⌊(b + s) / (2 * Real.pi)⌋ then -1 else min (F a) (F b)

theorem ceil_le_floor_iff (a b s : ℝ) :
    ⌈(a + s) / (2 * Real.pi)⌉ ≤ ⌊(b + s) / (2 * Real.pi)⌋ ↔
      ∃ k : ℤ, a ≤ k * (2 * Real.pi) - s ∧ k * (2 * Real.pi) - s ≤ b := by
  have h2p : (0 : ℝ) < 2 * Real.pi := by linarith [Real.pi_pos]
  constructor
  · intro h
    refine ⟨⌈(a + s) / (2 * Real.pi)⌉, ?_, ?_⟩
    · have := Int.le_ceil ((a + s) / (2 * Real.pi)); rw [div_le_iff₀ h2p] at this; linarith
    · have h1 := Int.floor_le ((b + s) / (2 * Real.pi))
      have h2 : ((⌈(a + s) / (2 * Real.pi)⌉ : ℤ) : ℝ) ≤ (⌊(b + s) / (2 * Real.pi)⌋ : ℤ) := by exact_mod_cast h
      have h3 := h2.trans h1
      rw [le_div_iff₀ h2p] at h3; linarith
  · rintro ⟨k, h1, h2⟩
    refine (Int.ceil_le.mpr ?_).trans ((Int.le_floor (a := (b + s) / (2 * Real.pi)) (z := k)).mpr ?_)
    · rw [div_le_iff₀ h2p]; linarith
    · rw [le_div_iff₀ h2p]; linarith

theorem trigUpper_greatest {F : ℝ → ℝ} {s a b : ℝ} (hF : ∀ x, F x = Real.cos (x + s)) (hab : a ≤ b) :
    IsGreatest (F '' Set.Icc a b) (trigUpper F s a b) := by
  unfold trigUpper
  split_ifs with h
  · obtain ⟨k, h1, h2⟩ := (ceil_le_floor_iff a b s).mp h
    refine ⟨⟨k * (2 * Real.pi) - s, ⟨h1, h2⟩, ?_⟩, ?_⟩
    · rw [hF, sub_add_cancel, Real.cos_int_mul_two_pi]
    · rintro _ ⟨x, _, rfl⟩; rw [hF]; exact Real.cos_le_one _
  · rw [ceil_le_floor_iff] at h
    refine ⟨?_, ?_⟩
    · rcases max_choice (F a) (F b) with e | e <;> rw [e]
      · exact ⟨a, ⟨le_refl _, hab⟩, rfl⟩
      · exact ⟨b, ⟨hab, le_refl _⟩, rfl⟩
    · rintro _ ⟨x, ⟨h1, h2⟩, rfl⟩
      rw [hF, hF, hF]; exact cos_le_max_of_no_max h1 h2 h

theorem trigLower_least {F : ℝ → ℝ} {s a b : ℝ} (hF : ∀ x, F x = -Real.cos (x + s)) (hab : a ≤ b) :
    IsLeast (F '' Set.Icc a b) (trigLower F s a b) := by
  have h := trigUpper_greatest (F := fun x => -F x) (s := s) (a := a) (b := b) (fun x => by rw [hF, neg_neg]) hab
  have e : trigUpper (fun x => -F x) s a b = -trigLower F s a b := by
    unfold trigUpper trigLower; split_ifs
    · norm_num
    · rw [max_neg_neg]
  rw [e] at h
  obtain ⟨⟨x, hx, h1⟩, h2⟩ := h
  refine ⟨⟨x, hx, by simpa using h1⟩, ?_⟩
  rintro _ ⟨y, hy, rfl⟩
  have := h2 ⟨y, hy, rfl⟩
  simpa using this

/-- C29 in exact arithmetic: for intervals of any width and position the formulas give exactly the range. -/
theorem C29_exact_range (a b : ℝ) (hab : a ≤ b) :
    IsLeast (Real.sin '' Set.Icc a b) (trigLower Real.sin (Real.pi / 2) a b) ∧
    IsGreatest (Real.sin '' Set.Icc a b) (trigUpper Real.sin (-(Real.pi / 2)) a b) ∧
    IsLeast (Real.cos '' Set.Icc a b) (trigLower Real.cos (-Real.pi) a b) ∧
    IsGreatest (Real.cos '' Set.Icc a b) (trigUpper Real.cos 0 a b) :=
  ⟨trigLower_least sinShape.mn hab, trigUpper_greatest sinShape.mx hab, trigLower_least cosShape.mn hab,
    trigUpper_greatest cosShape.mx hab⟩

end IntvalPy
