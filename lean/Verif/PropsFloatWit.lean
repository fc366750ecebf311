import Verif.PropsFloatEnc
import Verif.SpecKaucher
import Verif.ModelKernel

/-!
# L1 witnesses: where enclosure fails in IEEE binary64
-/

set_option autoImplicit false
set_option linter.unusedSectionVars false

namespace IntvalPy
open FIv

theorem ulpExp_eq {x : ℚ} {n : ℤ} (h1 : (2 : ℚ) ^ n ≤ |x|) (h2 : |x| < (2 : ℚ) ^ (n + 1)) (hn : -1022 ≤ n) :
    ulpExp x = n - 52 := by
  have hx : 0 < |x| := lt_of_lt_of_le (zpow_pos (by norm_num) n) h1
  have a1 : n ≤ Int.log 2 |x| := (Int.zpow_le_iff_le_log (b := 2) (by norm_num) hx).mp (by exact_mod_cast h1)
  have a2 : Int.log 2 |x| < n + 1 := (Int.lt_zpow_iff_log_lt (b := 2) (by norm_num) hx).mp (by exact_mod_cast h2)
  unfold ulpExp
  omega

theorem nearTo_eq {x : ℚ} {n k : ℤ} (h1 : (2 : ℚ) ^ n ≤ |x|) (h2 : |x| < (2 : ℚ) ^ (n + 1)) (hn : -1022 ≤ n)
    (h3 : nearInt (x / 2 ^ (n - 52)) = k) : nearTo x = (k : ℚ) * 2 ^ (n - 52) := by
  unfold nearTo ulp
  rw [ulpExp_eq h1 h2 hn, h3]

/-! ## C08 -/

/-- C08, full statement: sums of intervals with integer endpoints of any size enclose. -/
def C08_statement : Prop :=
  ∀ (x1 x2 y1 y2 : ℤ) (x y : ℤ) (Z : FIv) (s s' : Mode), x1 ≤ x → x ≤ x2 → y1 ≤ y → y ≤ y2 →
    FIv.add ⟨.classical, .int x1, .int x2⟩ ⟨.classical, .int y1, .int y2⟩ s = (.ok Z, s') → Z.Mem ((x : ℝ) + y)

theorem near_two53_succ : round .nearest (((2 : ℤ) ^ 53 + 1 : ℤ) : ℚ) = .fin (2 ^ 53) := by
  have e : nearTo (((2 : ℤ) ^ 53 + 1 : ℤ) : ℚ) = 2 ^ 53 := by
    rw [nearTo_eq (n := 53) (k := 2 ^ 52) (by norm_num [abs_of_pos]) (by norm_num [abs_of_pos]) (by norm_num)]
    · norm_num
    · have hf : ⌊(((2 : ℤ) ^ 53 + 1 : ℤ) : ℚ) / 2 ^ ((53 : ℤ) - 52)⌋ = 2 ^ 52 := by
        rw [Int.floor_eq_iff]; norm_num
      unfold nearInt
      simp only [hf]
      norm_num
  simp only [round, e]
  have := two53_le_maxFin
  have h0 : (0 : ℚ) ≤ maxFin := le_trans (by norm_num) this
  rw [if_neg (not_lt.mpr this), if_neg (by
    have : (0 : ℚ) ≤ 2 ^ 53 := by norm_num
    linarith)]

/-- C08 is false: `[2^53+1, 2^53+1] + [0, 0]` is `[2^53, 2^53]`: the exact integer result is converted to
a double half-to-even whatever the rounding mode, and the sum is lost. -/
theorem C08_int_encloses_false : ¬ C08_statement := by
  intro h
  have hr : FIv.add ⟨.classical, .int (2 ^ 53 + 1), .int (2 ^ 53 + 1)⟩ ⟨.classical, .int 0, .int 0⟩ .nearest
      = (.ok ⟨.classical, .dbl (.fin (2 ^ 53)), .dbl (.fin (2 ^ 53))⟩, .nearest) := by
    have st : ∀ m, ((FIv.store (nadd (.int (2 ^ 53 + 1)) (.int 0))) m).1 = .ok (.dbl (.fin (2 ^ 53))) := by
      intro m
      show (Num.toDbl (.int (2 ^ 53 + 1 + 0))).map Num.dbl = _
      rw [add_zero]
      simp only [Num.toDbl, near_two53_succ]; rfl
    exact run_two_ok (st _) (st _)
  have := (h (2 ^ 53 + 1) (2 ^ 53 + 1) 0 0 (2 ^ 53 + 1) 0 _ _ _ le_rfl le_rfl le_rfl le_rfl hr).2
  simp only [Dbl.Upper, Num.val] at this
  norm_num at this

/-- C08, the part that holds: integer endpoints up to `2^52` for sums and differences and up to `2^26` for
products, of either sign; every result encloses. -/
theorem C08_int_encloses_partial (x1 x2 y1 y2 : ℤ) (s : Mode) (x y : ℝ)
    (hx : (x1 : ℝ) ≤ x ∧ x ≤ x2) (hy : (y1 : ℝ) ≤ y ∧ y ≤ y2)
    (bx : |x1| ≤ 2 ^ 52 ∧ |x2| ≤ 2 ^ 52) (by_ : |y1| ≤ 2 ^ 52 ∧ |y2| ≤ 2 ^ 52) :
    let X : FIv := ⟨.classical, .int x1, .int x2⟩
    let Y : FIv := ⟨.classical, .int y1, .int y2⟩
    (∃ Z, FIv.add X Y s = (.ok Z, s) ∧ Z.Mem (x + y)) ∧
    (∃ Z, FIv.sub X Y s = (.ok Z, s) ∧ Z.Mem (x - y)) ∧
    (|x1| ≤ 2 ^ 26 ∧ |x2| ≤ 2 ^ 26 → |y1| ≤ 2 ^ 26 ∧ |y2| ≤ 2 ^ 26 →
      ∃ Z, FIv.mul X Y s = (.ok Z, s) ∧ Z.Mem (x * y)) := by
  intro X Y
  have mx : X.Mem x := ⟨by show ((x1 : ℚ) : ℝ) ≤ x; exact_mod_cast hx.1, by show x ≤ ((x2 : ℚ) : ℝ); exact_mod_cast hx.2⟩
  have my : Y.Mem y := ⟨by show ((y1 : ℚ) : ℝ) ≤ y; exact_mod_cast hy.1, by show y ≤ ((y2 : ℚ) : ℝ); exact_mod_cast hy.2⟩
  obtain ⟨⟨Z, hZ, hm⟩, ⟨W, hW, hw⟩⟩ := C01_float_encloses X Y s bx by_
  refine ⟨⟨Z, hZ, hm x y mx my⟩, ⟨W, hW, hw x y mx my⟩, fun cx cy => ?_⟩
  obtain ⟨V, hV, hv⟩ := C02_float_encloses X Y s rfl rfl ⟨⟨_, rfl⟩, ⟨_, rfl⟩⟩ ⟨⟨_, rfl⟩, ⟨_, rfl⟩⟩ cx cy
  exact ⟨V, hV, hv x y mx my⟩

example : |(3 : ℤ)| ≤ 2 ^ 26 ∧ ((-3 : ℤ) : ℝ) ≤ -1 ∧ (-1 : ℝ) ≤ ((3 : ℤ) : ℝ) := by norm_num

/-! ## C04 in binary64 -/

theorem near_third : round .nearest (1 / 3) = .fin (6004799503160661 * 2 ^ (-54 : ℤ)) := by
  have e : nearTo (1 / 3 : ℚ) = 6004799503160661 * 2 ^ (-54 : ℤ) := by
    rw [nearTo_eq (n := -2) (k := 6004799503160661) (by norm_num [abs_of_pos]) (by norm_num [abs_of_pos])
      (by norm_num)]
    · norm_num
    · have hf : ⌊(1 / 3 : ℚ) / 2 ^ ((-2 : ℤ) - 52)⌋ = 6004799503160661 := by
        rw [Int.floor_eq_iff]; norm_num
      unfold nearInt
      simp only [hf]
      norm_num
  have h53 := two53_le_maxFin
  simp only [round, e]
  rw [if_neg (by rw [not_lt]; refine le_trans ?_ h53; norm_num), if_neg (by
    rw [not_lt]; refine le_trans (neg_le_neg h53) ?_; norm_num)]

/-- C04 in binary64: `Interval(1., 1.) / 3.` does not contain one third when the ambient rounding mode is
the default one, because the reciprocal is rounded to nearest before the directed multiplication. -/
theorem C04_float_encloses_false :
    ∃ (X Z : FIv), X = ⟨.classical, .dbl (.fin 1), .dbl (.fin 1)⟩ ∧ X.Mem 1 ∧
      FIv.divNum X (.dbl (.fin 3)) .nearest = (.ok Z, .nearest) ∧ ¬ Z.Mem (1 / 3) := by
  refine ⟨_, ⟨.classical, .dbl (.fin (6004799503160661 * 2 ^ (-54 : ℤ))),
    .dbl (.fin (6004799503160661 * 2 ^ (-54 : ℤ)))⟩, rfl, ?_, ?_, ?_⟩
  · constructor <;> norm_num [Num.val, Dbl.Lower, Dbl.Upper]
  · have hr : round .nearest ((1 : ℚ) / 3) = .fin (6004799503160661 * 2 ^ (-54 : ℤ)) := near_third
    have hF : IsF (6004799503160661 * 2 ^ (-54 : ℤ) : ℚ) :=
      ⟨6004799503160661, -54, by norm_num, by norm_num, by norm_num⟩
    have h53 := two53_le_maxFin
    have hR : ∀ m, round m (6004799503160661 * 2 ^ (-54 : ℤ)) = .fin (6004799503160661 * 2 ^ (-54 : ℤ)) :=
      fun m => isF_le_maxFin_round m hF (le_trans (by norm_num) h53)
        (le_trans (neg_le_neg h53) (by norm_num))
    have hd : Num.div .nearest (.dbl (.fin 1)) (.dbl (.fin 3))
        = .ok (.dbl (.fin (6004799503160661 * 2 ^ (-54 : ℤ)))) := by
      show (if (3 : ℚ) = 0 then (Except.error Err.zeroDivisionError : Except Err Dbl)
        else .ok (round .nearest ((1 : ℚ) / 3))).map Num.dbl = _
      rw [if_neg (by norm_num), hr]; rfl
    have hm : ∀ m, Num.mul m (.dbl (.fin (6004799503160661 * 2 ^ (-54 : ℤ)))) (.dbl (.fin 1))
        = .ok (.dbl (.fin (6004799503160661 * 2 ^ (-54 : ℤ)))) := by
      intro m
      show Except.ok (Num.dbl (round m (6004799503160661 * 2 ^ (-54 : ℤ) * 1))) = _
      rw [mul_one, hR]
    unfold FIv.divNum
    rw [run_bind]
    simp only [FIv.ndiv, M.op]
    rw [hd]
    show FIv.rmul _ _ _ = _
    unfold FIv.rmul
    refine run_two_ok ?_ ?_
    · refine run_store (v := .dbl (.fin (6004799503160661 * 2 ^ (-54 : ℤ)))) ?_ trivial
      simp only [run_bind, FIv.nmul, M.op, hm]
      show Except.ok (Num.min2 _ _) = _
      rw [Num.min2, ite_self]
    · refine run_store (v := .dbl (.fin (6004799503160661 * 2 ^ (-54 : ℤ)))) ?_ trivial
      simp only [run_bind, FIv.nmul, M.op, hm]
      show Except.ok (Num.max2 _ _) = _
      rw [Num.max2, ite_self]
  · rintro ⟨_, h⟩
    simp only [Dbl.Upper, Num.val] at h
    norm_num at h

/-! ## C61: unbounded operands -/

/-- C61, full statement: the product of two classical intervals, bounded or not, contains the products of
their members. -/
def C61_statement : Prop :=
  ∀ (X Y Z : FIv) (s s' : Mode) (x y : ℝ), X.cls = .classical → Y.cls = .classical →
    (∃ d e, X.a = .dbl d ∧ X.b = .dbl e) → (∃ d e, Y.a = .dbl d ∧ Y.b = .dbl e) →
    X.Mem x → Y.Mem y → FIv.mul X Y s = (.ok Z, s') → Z.Mem (x * y)

theorem min2_nan (v : Num) : Num.min2 (.dbl .nan) v = .dbl .nan := by
  have : v.lt (.dbl .nan) = false := by
    unfold Num.lt; cases v.val <;> rfl
  unfold Num.min2; rw [this]; rfl

theorem max2_nan (v : Num) : Num.max2 (.dbl .nan) v = .dbl .nan := by
  have : (Num.dbl .nan).lt v = false := by
    unfold Num.lt; cases v.val <;> rfl
  unfold Num.max2; rw [this]; rfl

/-- C61 is false: `[-inf, 1] * [0, 1]` is `[nan, nan]`, since `-inf * 0` is NaN and a NaN in first position
survives `min` and `max`.  (`log([0, 1])` produces such operands.) -/
theorem C61_unbounded_mul_false : ¬ C61_statement := by
  intro h
  have hr : FIv.mul ⟨.classical, .dbl .ninf, .dbl (.fin 1)⟩ ⟨.classical, .dbl (.fin 0), .dbl (.fin 1)⟩ .nearest
      = (.ok ⟨.classical, .dbl .nan, .dbl .nan⟩, .nearest) := by
    refine run_two_ok ?_ ?_
    · refine run_store (v := .dbl .nan) ?_ trivial
      refine (run_min4 (a := .dbl .nan) rfl rfl rfl rfl).trans ?_
      rw [min2_nan, min2_nan, min2_nan]
    · refine run_store (v := .dbl .nan) ?_ trivial
      refine (run_max4 (a := .dbl .nan) rfl rfl rfl rfl).trans ?_
      rw [max2_nan, max2_nan, max2_nan]
  have := (h ⟨.classical, .dbl .ninf, .dbl (.fin 1)⟩ ⟨.classical, .dbl (.fin 0), .dbl (.fin 1)⟩ _ _ _ (-5) 1 rfl rfl ⟨_, _, rfl, rfl⟩ ⟨_, _, rfl, rfl⟩
    ⟨trivial, by norm_num [Num.val, Dbl.Upper]⟩
    ⟨by norm_num [Num.val, Dbl.Lower], by norm_num [Num.val, Dbl.Upper]⟩ hr).1
  exact this

/-- C61, the part that holds: sums and differences of unbounded intervals (also `C01_float_encloses`) and
products of bounded ones.  Missing: products with an unbounded operand. -/
theorem C61_unbounded_partial (X Y : FIv) (s : Mode) (cX : X.cls = .classical) (cY : Y.cls = .classical)
    (hX : ∃ d e, X.a = .dbl d ∧ X.b = .dbl e) (hY : ∃ d e, Y.a = .dbl d ∧ Y.b = .dbl e) :
    (∃ Z, FIv.add X Y s = (.ok Z, s) ∧ ∀ x y : ℝ, X.Mem x → Y.Mem y → Z.Mem (x + y)) ∧
    (∃ Z, FIv.sub X Y s = (.ok Z, s) ∧ ∀ x y : ℝ, X.Mem x → Y.Mem y → Z.Mem (x - y)) ∧
    (X.Finite → Y.Finite → ∃ Z, FIv.mul X Y s = (.ok Z, s) ∧ ∀ x y : ℝ, X.Mem x → Y.Mem y → Z.Mem (x * y)) := by
  obtain ⟨d, e, h1, h2⟩ := hX
  obtain ⟨d', e', h3, h4⟩ := hY
  have t1 : ∀ B, X.a.IntsLe B ∧ X.b.IntsLe B := fun B => by rw [h1, h2]; exact ⟨trivial, trivial⟩
  have t2 : ∀ B, Y.a.IntsLe B ∧ Y.b.IntsLe B := fun B => by rw [h3, h4]; exact ⟨trivial, trivial⟩
  have := C01_float_encloses X Y s (t1 _) (t2 _)
  exact ⟨this.1, this.2, fun fX fY => C02_float_encloses X Y s cX cY fX fY (t1 _) (t2 _)⟩

example : (FIv.mk .classical (.dbl .ninf) (.dbl .pinf)).Mem 7 := ⟨trivial, trivial⟩

/-! ## C05: a zero numerator and a tiny divisor -/

theorem neg_two1074 : round .down (1 / (-(2 : ℚ) ^ (-1074 : ℤ))) = .ninf := by
  have e : (1 / (-(2 : ℚ) ^ (-1074 : ℤ))) = ((-1 : ℤ) : ℚ) * 2 ^ (1074 : ℤ) := by
    rw [zpow_neg, one_div, ← neg_inv, inv_inv]; push_cast; ring
  have hF : IsF (((-1 : ℤ) : ℚ) * 2 ^ (1074 : ℤ)) := ⟨-1, 1074, by norm_num, by norm_num, rfl⟩
  have hb : (maxFin : ℚ) < 2 ^ (1074 : ℤ) := by
    have : (2 : ℚ) ^ (1074 : ℤ) = 2 ^ 103 * 2 ^ 971 := by
      rw [show (1074 : ℤ) = 103 + 971 by norm_num, zpow_add₀ two_ne_zero, zpow_ofNat, zpow_ofNat]
    rw [this, maxFin]
    exact mul_lt_mul_of_pos_right (by norm_num) (by positivity)
  have hp : (0 : ℚ) ≤ maxFin := le_trans (by norm_num) two53_le_maxFin
  rw [e]
  simp only [round, floorTo_of_isF hF]
  generalize (2 : ℚ) ^ (1074 : ℤ) = T at hb
  have e1 : ((-1 : ℤ) : ℚ) * T = -T := by push_cast; ring
  rw [e1, if_neg (by linarith), if_pos (by linarith)]

/-- C05 in binary64 has an exception: `0 / [-1, -2^-1074]` is `[nan, nan]`, though `0` belongs to the set of
quotients: the outward reciprocal overflows to `-inf`, and `0 * -inf` is NaN. -/
theorem C05_float_rdiv_false :
    ∃ (X Z : FIv), X.cls = .classical ∧ X.Mem (-1) ∧ ¬ X.Mem 0 ∧ X.Finite ∧
      FIv.rdiv (.dbl (.fin 0)) X .nearest = (.ok Z, .nearest) ∧ ¬ Z.Mem (0 / (-1)) := by
  refine ⟨⟨.classical, .dbl (.fin (-1)), .dbl (.fin (-(2 : ℚ) ^ (-1074 : ℤ)))⟩,
    ⟨.classical, .dbl .nan, .dbl .nan⟩, rfl, ?_, ?_, ⟨⟨_, rfl⟩, ⟨_, rfl⟩⟩, ?_, fun h => h.1⟩
  · refine ⟨by norm_num [Num.val, Dbl.Lower], ?_⟩
    show (-1 : ℝ) ≤ ((-(2 : ℚ) ^ (-1074 : ℤ) : ℚ) : ℝ)
    have : (2 : ℚ) ^ (-1074 : ℤ) ≤ 1 := zpow_le_one_of_nonpos₀ (by norm_num) (by norm_num)
    have h' : (-1 : ℚ) ≤ -(2 : ℚ) ^ (-1074 : ℤ) := by linarith
    exact_mod_cast h'
  · rintro ⟨_, h⟩
    have h' : (0 : ℝ) ≤ ((-(2 : ℚ) ^ (-1074 : ℤ) : ℚ) : ℝ) := h
    have : (0 : ℚ) < (2 : ℚ) ^ (-1074 : ℤ) := zpow_pos (by norm_num) _
    have h'' : (0 : ℚ) ≤ -(2 : ℚ) ^ (-1074 : ℤ) := by exact_mod_cast h'
    linarith
  · have hpos : (0 : ℚ) < (2 : ℚ) ^ (-1074 : ℤ) := zpow_pos (by norm_num) _
    have h0 : ¬ (FIv.containsNum ⟨.classical, .dbl (.fin (-1)), .dbl (.fin (-(2 : ℚ) ^ (-1074 : ℤ)))⟩
        (.dbl (.fin 0)) = true) := by
      simp only [FIv.containsNum, Num.le, Num.val, Dbl.le, Bool.and_eq_true, decide_eq_true_eq]
      rintro ⟨_, h⟩; linarith
    have d1 : Num.div .down (.dbl (.fin 1)) (.dbl (.fin (-(2 : ℚ) ^ (-1074 : ℤ)))) = .ok (.dbl .ninf) := by
      show (if (-(2 : ℚ) ^ (-1074 : ℤ)) = 0 then (Except.error Err.zeroDivisionError : Except Err Dbl)
        else .ok (round .down ((1 : ℚ) / (-(2 : ℚ) ^ (-1074 : ℤ))))).map Num.dbl = _
      rw [if_neg (by linarith), neg_two1074]; rfl
    have d2 : Num.div .up (.dbl (.fin 1)) (.dbl (.fin (-1))) = .ok (.dbl (.fin (-1))) := by
      show (if (-1 : ℚ) = 0 then (Except.error Err.zeroDivisionError : Except Err Dbl)
        else .ok (round .up ((1 : ℚ) / (-1)))).map Num.dbl = _
      rw [if_neg (by norm_num), show (1 : ℚ) / -1 = ((-1 : ℤ) : ℚ) by norm_num, round_int _ (by norm_num)]
      norm_num; rfl
    have hrec : FIv.recip .classical ⟨.classical, .dbl (.fin (-1)), .dbl (.fin (-(2 : ℚ) ^ (-1074 : ℤ)))⟩ .nearest
        = (.ok ⟨.classical, .dbl .ninf, .dbl (.fin (-1))⟩, .nearest) :=
      run_two_ok
        (run_store (x := ndiv (.dbl (.fin 1)) (.dbl (.fin (-(2 : ℚ) ^ (-1074 : ℤ))))) (m := .down) d1 trivial)
        (run_store (x := ndiv (.dbl (.fin 1)) (.dbl (.fin (-1)))) (m := .up) d2 trivial)
    unfold FIv.rdiv
    rw [if_neg h0, run_bind, hrec]
    show FIv.rmul _ _ _ = _
    unfold FIv.rmul
    have m1 : ∀ m, Num.mul m (.dbl (.fin 0)) (.dbl .ninf) = .ok (.dbl .nan) := by
      intro m
      show Except.ok (Num.dbl (Dbl.infTimes 0 false)) = _
      rw [Dbl.infTimes, if_pos rfl]
    refine run_two_ok ?_ ?_
    · refine run_store (v := .dbl .nan) ?_ trivial
      simp only [run_bind, FIv.nmul, M.op, m1]
      show Except.ok (Num.min2 (.dbl .nan) _) = _
      rw [min2_nan]
    · refine run_store (v := .dbl .nan) ?_ trivial
      simp only [run_bind, FIv.nmul, M.op, m1]
      show Except.ok (Num.max2 (.dbl .nan) _) = _
      rw [max2_nan]

theorem Dbl.mul_ok (m : Mode) {q : ℚ} (hq : q ≠ 0) {d : Dbl} (hd : d.Ok) : (Dbl.mul m (.fin q) d).Ok := by
  cases d with
  | fin p => exact round_ok _ _
  | pinf => simp only [Dbl.mul, Dbl.infTimes, if_neg hq, Dbl.Ok]; split_ifs <;> simp
  | ninf => simp only [Dbl.mul, Dbl.infTimes, if_neg hq, Dbl.Ok]; split_ifs <;> simp
  | nan => exact absurd rfl hd

theorem Dbl.mul_bounds {q : ℚ} {d : Dbl} {x : ℝ} :
    (0 < q → d.Lower x → (Dbl.mul .down (.fin q) d).Lower (q * x)) ∧
    (0 < q → d.Upper x → (Dbl.mul .up (.fin q) d).Upper (q * x)) ∧
    (q < 0 → d.Upper x → (Dbl.mul .down (.fin q) d).Lower (q * x)) ∧
    (q < 0 → d.Lower x → (Dbl.mul .up (.fin q) d).Upper (q * x)) := by
  refine ⟨fun hq hd => ?_, fun hq hd => ?_, fun hq hd => ?_, fun hq hd => ?_⟩ <;>
    cases d <;> simp only [Dbl.Lower, Dbl.Upper] at hd
  · exact round_down_lower (by push_cast; exact mul_le_mul_of_nonneg_left hd (by exact_mod_cast hq.le))
  · simp [Dbl.mul, Dbl.infTimes, hq.ne', hq, Dbl.Lower]
  · exact round_up_upper (by push_cast; exact mul_le_mul_of_nonneg_left hd (by exact_mod_cast hq.le))
  · simp [Dbl.mul, Dbl.infTimes, hq.ne', hq, Dbl.Upper]
  · exact round_down_lower (by push_cast; exact mul_le_mul_of_nonpos_left hd (by exact_mod_cast hq.le))
  · simp [Dbl.mul, Dbl.infTimes, hq.ne, hq.not_gt, Dbl.Lower]
  · exact round_up_upper (by push_cast; exact mul_le_mul_of_nonpos_left hd (by exact_mod_cast hq.le))
  · simp [Dbl.mul, Dbl.infTimes, hq.ne, hq.not_gt, Dbl.Upper]

/-- C05 in binary64: a nonzero finite number times any classical interval without NaN, and zero times a
bounded one, enclose the products; overflow included. -/
theorem C05_float_rmul_encloses (X : FIv) (c : Num) (q : ℚ) (s : Mode) (cX : X.cls = .classical)
    (hX : X.a.IntsLe (2 ^ 26) ∧ X.b.IntsLe (2 ^ 26)) (hc : c.IntsLe (2 ^ 26)) (hq : c.val = .fin q)
    (ha : X.a.val.Ok) (hb : X.b.val.Ok) (h0 : q ≠ 0 ∨ X.Finite) :
    ∃ Z, FIv.rmul c X s = (.ok Z, s) ∧ ∀ x : ℝ, X.Mem x → Z.Mem (q * x) := by
  have ok : ∀ m, (Dbl.mul m (.fin q) X.a.val).Ok ∧ (Dbl.mul m (.fin q) X.b.val).Ok := by
    intro m
    rcases h0 with h | ⟨⟨p, h1⟩, ⟨r, h2⟩⟩
    · exact ⟨Dbl.mul_ok m h ha, Dbl.mul_ok m h hb⟩
    · rw [h1, h2]; exact ⟨round_ok _ _, round_ok _ _⟩
  obtain ⟨v, hv, ev, sv⟩ := num_mul .down hc hX.1
  obtain ⟨w, hw, ew, sw⟩ := num_mul .down hc hX.2
  obtain ⟨v', hv', ev', sv'⟩ := num_mul .up hc hX.1
  obtain ⟨w', hw', ew', sw'⟩ := num_mul .up hc hX.2
  rw [hq] at ev ew ev' ew'
  obtain ⟨c1, l1, l2⟩ := min2_spec (x := v) (y := w) (by rw [ev]; exact (ok _).1) (by rw [ew]; exact (ok _).2)
  obtain ⟨c2, u1, u2⟩ := max2_spec (x := v') (y := w') (by rw [ev']; exact (ok _).1) (by rw [ew']; exact (ok _).2)
  have s1 : (v.min2 w).IntsLe (2 ^ 53) := by rcases c1 with e | e <;> rw [e] <;> assumption
  have s2 : (v'.max2 w').IntsLe (2 ^ 53) := by rcases c2 with e | e <;> rw [e] <;> assumption
  refine ⟨⟨.classical, .dbl (v.min2 w).val, .dbl (v'.max2 w').val⟩, ?_, ?_⟩
  · unfold FIv.rmul
    rw [cX]
    refine run_two_ok ?_ ?_
    · refine run_store ?_ s1
      simp only [run_bind, FIv.nmul, M.op, hv, hw]; rfl
    · refine run_store ?_ s2
      simp only [run_bind, FIv.nmul, M.op, hv', hw']; rfl
  · rintro x ⟨hx1, hx2⟩
    constructor
    · show (v.min2 w).val.Lower _
      rcases lt_trichotomy q 0 with h | h | h
      · exact Dbl.lower_of_le l2 (by rw [ew]; exact Dbl.mul_bounds.2.2.1 h hx2)
      · rcases h0 with h0 | ⟨⟨p, h1⟩, _⟩
        · exact absurd h h0
        · refine Dbl.lower_of_le l1 ?_
          rw [ev, h1]; subst h
          exact round_down_lower (by simp)
      · exact Dbl.lower_of_le l1 (by rw [ev]; exact Dbl.mul_bounds.1 h hx1)
    · show (v'.max2 w').val.Upper _
      rcases lt_trichotomy q 0 with h | h | h
      · exact Dbl.upper_of_le u1 (by rw [ev']; exact Dbl.mul_bounds.2.2.2 h hx1)
      · rcases h0 with h0 | ⟨⟨p, h1⟩, _⟩
        · exact absurd h h0
        · refine Dbl.upper_of_le u1 ?_
          rw [ev', h1]; subst h
          exact round_up_upper (by simp)
      · exact Dbl.upper_of_le u2 (by rw [ew']; exact Dbl.mul_bounds.2.1 h hx2)

/-- C05 in binary64, the part of `c / X` that holds: a nonzero finite numerator; the divisor is bounded and
does not contain zero; the reciprocal may overflow.  Missing: the zero numerator, see
`C05_float_rdiv_false`. -/
theorem C05_float_rdiv_partial (X : FIv) (c : Num) (q : ℚ) (s : Mode) (cX : X.cls = .classical)
    (fX : X.Finite) (hX : X.a.IntsLe (2 ^ 53 - 1) ∧ X.b.IntsLe (2 ^ 53 - 1)) (hc : c.IntsLe (2 ^ 26))
    (hq : c.val = .fin q) (hq0 : q ≠ 0) (hne : ∃ x, X.Mem x) (h0 : ¬ X.Mem 0) :
    ∃ Z, FIv.rdiv c X s = (.ok Z, s) ∧ ∀ x : ℝ, X.Mem x → Z.Mem (q / x) := by
  obtain ⟨⟨a, hxa⟩, ⟨b, hxb⟩⟩ := fX
  have hzero : X.containsNum (.dbl (.fin 0)) = true ↔ X.Mem 0 := by
    show (Dbl.le X.a.val (.fin 0) && Dbl.le (.fin 0) X.b.val) = true ↔ X.a.val.Lower 0 ∧ X.b.val.Upper 0
    rw [hxa, hxb]
    simp [Dbl.le, Dbl.Lower, Dbl.Upper]
  have hmem : ∀ x : ℝ, X.Mem x ↔ (a : ℝ) ≤ x ∧ x ≤ b := by
    intro x; unfold FIv.Mem; rw [hxa, hxb]; rfl
  obtain ⟨y0, hy0⟩ := hne
  rw [hmem] at hy0
  have hsR : 0 < (a : ℝ) ∨ (b : ℝ) < 0 := by
    by_contra hcon
    push Not at hcon
    exact h0 ((hmem 0).mpr hcon)
  have na : a ≠ 0 := by
    rintro rfl; rcases hsR with h | h
    · simp at h
    · have := hy0.1; simp only [Rat.cast_zero] at this; linarith [hy0.2]
  have nb : b ≠ 0 := by
    rintro rfl; rcases hsR with h | h
    · have := hy0.2; simp only [Rat.cast_zero] at this; linarith [hy0.1]
    · simp at h
  have one : (Num.dbl (.fin 1)).val = .fin 1 := rfl
  obtain ⟨v, hv, ev, sv⟩ := num_div (x := .dbl (.fin 1)) .down trivial hX.2 one hxb nb
  obtain ⟨w, hw, ew, sw⟩ := num_div (x := .dbl (.fin 1)) .up trivial hX.1 one hxa na
  have hrec : FIv.recip X.cls X s = (.ok ⟨X.cls, .dbl v.val, .dbl w.val⟩, s) :=
    run_two_ok (run_store (x := ndiv (.dbl (.fin 1)) X.b) (m := .down) hv sv)
      (run_store (x := ndiv (.dbl (.fin 1)) X.a) (m := .up) hw sw)
  obtain ⟨Z, hZ, hm⟩ := C05_float_rmul_encloses ⟨X.cls, .dbl v.val, .dbl w.val⟩ c q s cX ⟨trivial, trivial⟩ hc hq
    (by show v.val.Ok; rw [ev]; exact round_ok _ _) (by show w.val.Ok; rw [ew]; exact round_ok _ _) (Or.inl hq0)
  refine ⟨Z, ?_, ?_⟩
  · unfold FIv.rdiv
    rw [if_neg (by rw [hzero]; exact h0), run_bind, hrec]
    exact hZ
  · intro x hx
    rw [hmem] at hx
    have hi := inv_mem_of hsR hx
    have := hm (1 / x) ⟨by
        show v.val.Lower _
        rw [ev]; exact round_down_lower (by push_cast; exact hi.1), by
        show w.val.Upper _
        rw [ew]; exact round_up_upper (by push_cast; exact hi.2)⟩
    rwa [mul_one_div] at this

/-- A divisor below the smallest normal number, with an overflowing reciprocal. -/
example : (FIv.mk .classical (.dbl (.fin (2 ^ (-1074 : ℤ)))) (.int 1)).Mem 1 ∧
    ¬ (FIv.mk .classical (.dbl (.fin (2 ^ (-1074 : ℤ)))) (.int 1)).Mem 0 := by
  have hp : (0 : ℚ) < (2 : ℚ) ^ (-1074 : ℤ) := zpow_pos (by norm_num) _
  constructor
  · refine ⟨?_, by norm_num [Num.val, Dbl.Upper]⟩
    show (((2 : ℚ) ^ (-1074 : ℤ) : ℚ) : ℝ) ≤ 1
    have : (2 : ℚ) ^ (-1074 : ℤ) ≤ 1 := zpow_le_one_of_nonpos₀ (by norm_num) (by norm_num)
    exact_mod_cast this
  · rintro ⟨h, _⟩
    have h' : (((2 : ℚ) ^ (-1074 : ℤ) : ℚ) : ℝ) ≤ 0 := h
    have : (2 : ℚ) ^ (-1074 : ℤ) ≤ 0 := by exact_mod_cast h'
    linarith

/-- C09 in binary64: for a divisor with nonzero finite endpoints (integers below `2^53`) that does not contain zero, a
numpy scalar and a Python number give the same quotient. -/
theorem C09_float_same (X : FIv) (c : Num) (s : Mode) (hX : X.a.IntsLe (2 ^ 53 - 1) ∧ X.b.IntsLe (2 ^ 53 - 1)) (a b : ℚ)
    (ha : X.a.val = .fin a) (hb : X.b.val = .fin b) (na : a ≠ 0) (nb : b ≠ 0)
    (h0 : X.containsNum (.dbl (.fin 0)) = false) : FIv.ufuncDiv c X s = FIv.rdiv c X s := by
  have key : ∀ one : Num, one.IntsLe (2 ^ 53 - 1) → one.val = .fin 1 →
      ((FIv.store (ndiv one X.b)) .down).1 = .ok (.dbl (round .down (1 / b))) ∧
      ((FIv.store (ndiv one X.a)) .up).1 = .ok (.dbl (round .up (1 / a))) := by
    intro one h1 h2
    obtain ⟨w1, e1, f1, g1⟩ := num_div .down h1 hX.2 h2 hb nb
    obtain ⟨w2, e2, f2, g2⟩ := num_div .up h1 hX.1 h2 ha na
    rw [← f1, ← f2]
    exact ⟨run_store (x := ndiv one X.b) e1 g1, run_store (x := ndiv one X.a) e2 g2⟩
  obtain ⟨r1, r2⟩ := key (.dbl (.fin 1)) trivial rfl
  obtain ⟨i1, i2⟩ := key (.int 1) (by norm_num [Num.IntsLe]) (by norm_num [Num.val])
  have hrec : FIv.recip X.cls X s = (.ok ⟨X.cls, .dbl (round .down (1 / b)), .dbl (round .up (1 / a))⟩, s) :=
    run_two_ok (f := fun i s => ⟨X.cls, i, s⟩) r1 r2
  unfold FIv.rdiv
  rw [if_neg (by rw [h0]; simp), run_bind, hrec]
  unfold FIv.ufuncDiv
  simp only [run_bind, run_with, i1, i2]

example (c : Num) (s : Mode) : FIv.ufuncDiv c ⟨.classical, .int 2, .int 4⟩ s = FIv.rdiv c ⟨.classical, .int 2, .int 4⟩ s :=
  C09_float_same _ c s ⟨by norm_num [Num.IntsLe], by norm_num [Num.IntsLe]⟩ 2 4 (by norm_num [Num.val])
    (by norm_num [Num.val]) (by norm_num) (by norm_num) (by decide +kernel)

end IntvalPy
