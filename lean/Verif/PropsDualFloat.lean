import Verif.ModelDualFloat
import Verif.PropsUtils
import Mathlib.Tactic.FieldSimp

/-!
# dual, opp, pro and khi for every kind of endpoint (C159)

Endpoints are `int`s of any size or `float`s, which may be infinite or NaN.
-/

set_option autoImplicit false
set_option linter.unusedSectionVars false

namespace IntvalPy

/-! ## Specification -/

/-- The object belongs to the class that fits its ends: classical exactly when they are ordered. -/
def FitsClass (X : FIv) : Prop := X.cls = .classical ↔ Dbl.le X.a.val X.b.val = true

/-- An end is not a number. -/
def HasNan (X : FIv) : Prop := X.a.val = .nan ∨ X.b.val = .nan

/-- The end is infinite. -/
def IsInf (x : Num) : Prop := x.val = .pinf ∨ x.val = .ninf

/-- What is expected of the value of `khi`: division by zero only for `[0, 0]`, otherwise NaN or a number in `[-1, 1]`. -/
def KhiOK (X : FIv) (r : Except Err Num) : Prop := match r with
  | .error e => e = .zeroDivisionError ∧ X.a.val = .fin 0 ∧ X.b.val = .fin 0
  | .ok v => v.val = .nan ∨ ∃ q : ℚ, v.val = .fin q ∧ -1 ≤ q ∧ q ≤ 1

/-- C159 as stated in properties.jsonl, for objects whose class fits their ends. -/
def C159_statement : Prop := ∀ X : FIv, FitsClass X →
  (X.dualN.dualN = X ∧ X.oppN.oppN = X ∧ X.oppN = X.dualN.negObj ∧ FitsClass X.dualN ∧ FitsClass X.oppN) ∧
  (HasNan X → HasNan X.proN) ∧
  (¬ HasNan X → FitsClass X.proN ∧ Dbl.le X.proN.a.val X.a.val = true ∧ Dbl.le X.a.val X.proN.b.val = true ∧
    Dbl.le X.proN.a.val X.b.val = true ∧ Dbl.le X.b.val X.proN.b.val = true) ∧
  ∀ m, KhiOK X (X.khiN m)

/-! ## dual and opp -/

theorem dneg_neg (d : Dbl) : d.neg.neg = d := by cases d <;> simp [Dbl.neg]

theorem nneg_neg (x : Num) : x.neg.neg = x := by cases x <;> simp [Num.neg, dneg_neg]

theorem nneg_val (x : Num) : x.neg.val = x.val.neg := by cases x <;> simp [Num.neg, Num.val, Dbl.neg]

theorem dneg_le (d e : Dbl) : Dbl.le d.neg e.neg = Dbl.le e d := by
  cases d <;> cases e <;> simp [Dbl.le, Dbl.neg]

theorem flipCls_iff (X : FIv) : X.flipCls = .classical ↔ Dbl.le X.b.val X.a.val = true := by
  unfold FIv.flipCls Num.le
  split_ifs with h <;> simp [h]

theorem cls_unique {c d : Cls} {p : Prop} (h1 : c = .classical ↔ p) (h2 : d = .classical ↔ p) : c = d := by
  cases c <;> cases d <;> simp_all

/-- C159 for `dual` and `opp`, all ends: the class of the result always fits its ends (also with NaN, where the test
fails and the Kaucher class is chosen), `opp` is the negative of the dual, and both are involutions exactly on the
objects whose class fits their ends. -/
theorem C159_dual_opp (X : FIv) :
    FitsClass X.dualN ∧ FitsClass X.oppN ∧ X.oppN = X.dualN.negObj ∧
      (X.dualN.dualN = X ↔ FitsClass X) ∧ (X.oppN.oppN = X ↔ FitsClass X) := by
  have hd : FitsClass X.dualN := flipCls_iff X
  have ho : FitsClass X.oppN := by
    show X.flipCls = .classical ↔ Dbl.le X.a.neg.val X.b.neg.val = true
    rw [flipCls_iff, nneg_val, nneg_val, dneg_le]
  have e1 : X.dualN.flipCls = .classical ↔ Dbl.le X.a.val X.b.val = true := flipCls_iff X.dualN
  have e2 : X.oppN.flipCls = .classical ↔ Dbl.le X.a.val X.b.val = true := by
    rw [flipCls_iff X.oppN]
    show Dbl.le X.b.neg.val X.a.neg.val = true ↔ _
    rw [nneg_val, nneg_val, dneg_le]
  refine ⟨hd, ho, rfl, ⟨fun h => ?_, fun h => ?_⟩, ⟨fun h => ?_, fun h => ?_⟩⟩
  · have hc : X.dualN.flipCls = X.cls := congrArg FIv.cls h
    unfold FitsClass; rw [← hc]; exact e1
  · show FIv.mk X.dualN.flipCls X.a X.b = X
    rw [cls_unique e1 h]
  · have hc : X.oppN.flipCls = X.cls := congrArg FIv.cls h
    unfold FitsClass; rw [← hc]; exact e2
  · show FIv.mk X.oppN.flipCls X.a.neg.neg X.b.neg.neg = X
    rw [cls_unique e2 h, nneg_neg, nneg_neg]

/-- An unbounded interval and one with a NaN end. -/
example : FitsClass ⟨.classical, .int 1, .dbl .pinf⟩ ∧ FitsClass ⟨.kaucher, .int 1, .dbl .nan⟩ ∧
    FIv.dualN ⟨.classical, .int 1, .dbl .pinf⟩ = ⟨.kaucher, .dbl .pinf, .int 1⟩ ∧
    FIv.oppN ⟨.kaucher, .dbl .pinf, .int 1⟩ = ⟨.classical, .dbl .ninf, .int (-1)⟩ := by
  exact ⟨by simp [FitsClass, Num.val, Dbl.le], by simp [FitsClass, Num.val, Dbl.le], by decide +kernel, by decide +kernel⟩

/-! ## pro -/

/-- C159 for `pro` when no end is NaN: the result is a classical ordered interval that contains both ends, and its ends
are ends of the interval. -/
theorem C159_pro_partial (X : FIv) (hf : FitsClass X) (hn : ¬ HasNan X) :
    FitsClass X.proN ∧ Dbl.le X.proN.a.val X.a.val = true ∧ Dbl.le X.a.val X.proN.b.val = true ∧
      Dbl.le X.proN.a.val X.b.val = true ∧ Dbl.le X.b.val X.proN.b.val = true ∧
      (X.proN.a = X.a ∨ X.proN.a = X.b) ∧ (X.proN.b = X.a ∨ X.proN.b = X.b) := by
  have hn' : X.a.val.Ok ∧ X.b.val.Ok := ⟨fun h => hn (Or.inl h), fun h => hn (Or.inr h)⟩
  obtain ⟨c, a, b⟩ := X
  cases c with
  | classical =>
    have hle : Dbl.le a.val b.val = true := hf.1 rfl
    exact ⟨⟨fun _ => hle, fun _ => rfl⟩, Dbl.le_refl' hn'.1, hle, hle, Dbl.le_refl' hn'.2, Or.inl rfl, Or.inr rfl⟩
  | kaucher =>
    obtain ⟨m1, m2, m3⟩ := min2_spec (x := a) (y := b) hn'.1 hn'.2
    obtain ⟨M1, M2, M3⟩ := max2_spec (x := a) (y := b) hn'.1 hn'.2
    exact ⟨⟨fun _ => Dbl.le_trans' m2 M2, fun _ => rfl⟩, m2, M2, m3, M3, m1, M1⟩

example : FIv.proN ⟨.kaucher, .dbl .pinf, .int 1⟩ = ⟨.classical, .int 1, .dbl .pinf⟩ ∧
    ¬ HasNan ⟨.kaucher, .dbl .pinf, .int 1⟩ := by
  constructor
  · decide +kernel
  · simp [HasNan, Num.val]

/-- C159 for `pro` with NaN: the NaN survives exactly when it is the lower end or the object is classical; in the other
case the result is the point interval of the lower end. -/
theorem C159_pro_nan (X : FIv) :
    (HasNan X.proN ↔ HasNan X ∧ (X.cls = .classical ∨ X.a.val = .nan)) ∧
      (X.cls = .kaucher → X.b.val = .nan → X.proN = ⟨.classical, X.a, X.a⟩) := by
  obtain ⟨c, a, b⟩ := X
  cases c with
  | classical => simp [HasNan, FIv.proN, FIv.proLo, FIv.proHi]
  | kaucher =>
    have key : ∀ d e : Dbl, d = .nan ∨ e = .nan → Dbl.lt d e = false := by
      intro d e h
      rcases h with h | h <;> subst h
      · cases e <;> rfl
      · cases d <;> rfl
    constructor
    · simp only [HasNan, FIv.proN, FIv.proLo, FIv.proHi, Num.min2, Num.max2, Num.lt, reduceCtorEq, false_or]
      by_cases ha : a.val = .nan
      · simp [ha, key]
      · by_cases hb : b.val = .nan
        · simp [ha, hb, key]
        · have h1 : (a.min2 b).val ≠ .nan := by
            unfold Num.min2; split_ifs
            exacts [hb, ha]
          have h2 : (a.max2 b).val ≠ .nan := by
            unfold Num.max2; split_ifs
            exacts [hb, ha]
          simp only [ha, hb, or_self, false_and, iff_false, not_or]
          exact ⟨h1, h2⟩
    · intro _ hb
      have hb' : b.val = .nan := hb
      simp [FIv.proN, FIv.proLo, FIv.proHi, Num.min2, Num.max2, Num.lt, key _ _ (Or.inl hb'), key _ _ (Or.inr hb')]

/-! ## khi -/

theorem fabs_small {x : Num} (h : x.IntsLe (2 ^ 53)) : x.fabs = .ok (match x.val with
    | .fin q => .fin |q| | .pinf => .pinf | .ninf => .pinf | .nan => .nan) := by
  unfold Num.fabs
  rw [toDbl_of_small h]
  cases x.val <;> rfl

theorem isF_one : IsF (1 : ℚ) := by
  have := isF_int (K := ℚ) (z := 1) (by norm_num)
  simpa using this

theorem one_le_maxFin : (1 : ℚ) ≤ maxFin := le_trans (by norm_num) two53_le_maxFin

/-- The quotient of numbers when it is not a quotient of large integers. -/
theorem num_div_vals {x y : Num} (m : Mode) (hx : x.IntsLe (2 ^ 53 - 1)) (hy : y.IntsLe (2 ^ 53 - 1)) :
    Num.div m x y = (Dbl.div m x.val y.val).map .dbl := by
  have hx' := hx.mono (C := 2 ^ 53) (by norm_num)
  have hy' := hy.mono (C := 2 ^ 53) (by norm_num)
  cases x with
  | dbl d => cases y <;> exact viaDbl_of_small _ hx' hy'
  | int z =>
    cases y with
    | dbl d => exact viaDbl_of_small _ hx' hy'
    | int w =>
      have h1 : |z| ≤ 2 ^ 53 - 1 := hx
      have h2 : |w| ≤ 2 ^ 53 - 1 := hy
      by_cases hw : w = 0
      · subst hw; simp [Num.div, Dbl.div, Num.val, Except.map]
      · simp only [Num.div, Num.val, Dbl.div]
        rw [if_neg hw, if_pos ⟨by omega, by omega⟩, if_neg (by exact_mod_cast hw)]
        rfl

theorem quot_range {p q : ℚ} (h : |p| ≤ |q|) (h0 : q ≠ 0) : -1 ≤ p / q ∧ p / q ≤ 1 := by
  rw [← abs_le, abs_div]
  exact (div_le_one (abs_pos.2 h0)).2 h

/-- C159 for `khi`: ends are floats of any kind or integers below `2 ^ 53`.  It raises only `ZeroDivisionError`, exactly
when the lower end is zero and the upper end is zero or NaN; it is NaN exactly when (it returns and) an end is NaN or
both are infinite; in all other cases it is a number in `[-1, 1]`, zero when one end is infinite.  In every rounding
mode. -/
theorem C159_khi_partial (X : FIv) (m : Mode) (ha : X.a.IntsLe (2 ^ 53 - 1)) (hb : X.b.IntsLe (2 ^ 53 - 1)) :
    (∀ e, X.khiN m = .error e ↔ e = .zeroDivisionError ∧ X.a.val = .fin 0 ∧ (X.b.val = .fin 0 ∨ X.b.val = .nan)) ∧
    (∀ v, X.khiN m = .ok v →
      (v.val = .nan ↔ HasNan X ∨ (IsInf X.a ∧ IsInf X.b)) ∧
      (v.val ≠ .nan → ∃ q : ℚ, v.val = .fin q ∧ -1 ≤ q ∧ q ≤ 1 ∧ (IsInf X.a ∨ IsInf X.b → q = 0))) := by
  obtain ⟨c, a, b⟩ := X
  have ha' : a.IntsLe (2 ^ 53) := ha.mono (by norm_num)
  have hb' : b.IntsLe (2 ^ 53) := hb.mono (by norm_num)
  have e1 := num_div_vals m ha hb
  have e2 := num_div_vals m hb ha
  have f1 := fabs_small ha'
  have f2 := fabs_small hb'
  have rb : ∀ p q : ℚ, |p| ≤ |q| → q ≠ 0 → ∃ r, round m (p / q) = .fin r ∧ -1 ≤ r ∧ r ≤ 1 := by
    intro p q h h0
    obtain ⟨r, h1, h2, h3, -⟩ := round_between m isF_one.neg isF_one (by linarith [one_le_maxFin]) one_le_maxFin
      (quot_range h h0).1 (quot_range h h0).2
    exact ⟨r, h1, h2, h3⟩
  simp only [FIv.khiN, HasNan, IsInf]
  simp only at e1 e2
  rw [f1, f2]
  simp only [e1, e2]
  generalize a.val = p
  generalize b.val = q
  cases p with
  | fin p =>
    cases q with
    | fin q =>
      by_cases h : |p| ≤ |q|
      · simp only [Dbl.le, decide_eq_true_eq, if_pos h, Dbl.div]
        by_cases h0 : q = 0
        · subst h0
          have hp : p = 0 := by simpa using h
          subst hp
          simp [Except.map, eq_comm]
        · obtain ⟨r, h1, h2, h3⟩ := rb p q h h0
          rw [if_neg h0, h1]
          simp only [Except.map]
          refine ⟨fun e => by simp [h0], fun v hv => ?_⟩
          cases hv
          simp [Num.val, h2, h3]
      · have h' : |q| ≤ |p| := (not_le.1 h).le
        have h0 : p ≠ 0 := by
          rintro rfl; apply h; simp
        obtain ⟨r, h1, h2, h3⟩ := rb q p h' h0
        simp only [Dbl.le, decide_eq_true_eq, if_neg h, Dbl.div, if_neg h0, h1, Except.map]
        refine ⟨fun e => by simp [h0], fun v hv => ?_⟩
        cases hv
        simp [Num.val, h2, h3]
    | pinf => simp [Dbl.le, Dbl.div, Except.map, Num.val]
    | ninf => simp [Dbl.le, Dbl.div, Except.map, Num.val]
    | nan =>
      by_cases h0 : p = 0
      · simp [Dbl.le, Dbl.div, Except.map, h0, eq_comm]
      · simp [Dbl.le, Dbl.div, Except.map, Num.val, h0]
  | pinf => cases q <;> simp [Dbl.le, Dbl.div, Except.map, Num.val]
  | ninf => cases q <;> simp [Dbl.le, Dbl.div, Except.map, Num.val]
  | nan => cases q <;> simp [Dbl.le, Dbl.div, Except.map, Num.val]

example : FIv.khiN .nearest ⟨.classical, .int (-1), .dbl (.fin 2)⟩ = .ok (.dbl (.fin (-1 / 2))) ∧
    FIv.khiN .nearest ⟨.kaucher, .int 0, .dbl .nan⟩ = .error .zeroDivisionError ∧
    FIv.khiN .nearest ⟨.classical, .dbl .ninf, .dbl .pinf⟩ = .ok (.dbl .nan) ∧
    FIv.khiN .nearest ⟨.classical, .int 1, .dbl .pinf⟩ = .ok (.dbl (.fin 0)) := by decide +kernel

/-- Two different binary64 numbers differ by more than rounding a quotient can hide. -/
theorem isF_ratio {p q : ℚ} (hp : IsF p) (hq : IsF q) (hp0 : 0 ≤ p) (h : p < q) : p / q ≤ 1 - 1 / 2 ^ 53 := by
  obtain ⟨k, f, hk, -, rfl⟩ := hp
  obtain ⟨n, e, hn, -, rfl⟩ := hq
  have pf := two_zpow_pos (K := ℚ) f
  have pe := two_zpow_pos (K := ℚ) e
  have hq0 : (0 : ℚ) < (n : ℚ) * 2 ^ e := lt_of_le_of_lt hp0 h
  have hn0 : (0 : ℚ) < n := (pos_iff_pos_of_mul_pos hq0).2 pe
  have hk0 : (0 : ℚ) ≤ k := by
    by_contra hc
    have := mul_neg_of_neg_of_pos (not_le.1 hc) pf
    linarith
  have hkb : (k : ℚ) ≤ 2 ^ 53 - 1 := by
    have h1 : k < 2 ^ 53 := (abs_lt.1 hk).2
    have h2 : k ≤ 2 ^ 53 - 1 := by omega
    exact_mod_cast h2
  have hnb : (n : ℚ) ≤ 2 ^ 53 - 1 := by
    have h1 : n < 2 ^ 53 := (abs_lt.1 hn).2
    have h2 : n ≤ 2 ^ 53 - 1 := by omega
    exact_mod_cast h2
  rw [div_le_iff₀ hq0]
  rcases le_total e f with hef | hef
  · -- common unit `2 ^ e`
    obtain ⟨d, rfl⟩ := Int.le.dest hef
    have e1 : (2 : ℚ) ^ (e + (d : ℤ)) = 2 ^ d * 2 ^ e := by
      rw [zpow_add₀ (by norm_num), zpow_natCast]; ring
    rw [e1] at h ⊢
    have h1 : (k : ℚ) * 2 ^ d < n := by
      have : (k : ℚ) * 2 ^ d * 2 ^ e < n * 2 ^ e := by linarith [h, mul_assoc (k : ℚ) (2 ^ d) (2 ^ e)]
      exact lt_of_mul_lt_mul_right this pe.le
    have h2 : k * 2 ^ d + 1 ≤ n := by
      have : k * 2 ^ d < n := by exact_mod_cast h1
      omega
    have h3 : (k : ℚ) * 2 ^ d + 1 ≤ n := by exact_mod_cast h2
    have h4 : (k : ℚ) * 2 ^ d ≤ (1 - 1 / 2 ^ 53) * n := by
      have : (n : ℚ) * (1 / 2 ^ 53) ≤ 1 := by
        rw [mul_one_div, div_le_one (by positivity)]; linarith
      linarith
    calc (k : ℚ) * (2 ^ d * 2 ^ e) = k * 2 ^ d * 2 ^ e := by ring
      _ ≤ (1 - 1 / 2 ^ 53) * n * 2 ^ e := mul_le_mul_of_nonneg_right h4 pe.le
      _ = _ := by ring
  · obtain ⟨d, rfl⟩ := Int.le.dest hef
    have e1 : (2 : ℚ) ^ (f + (d : ℤ)) = 2 ^ d * 2 ^ f := by
      rw [zpow_add₀ (by norm_num), zpow_natCast]; ring
    rw [e1] at h ⊢
    have h1 : (k : ℚ) < n * 2 ^ d := by
      have : (k : ℚ) * 2 ^ f < n * 2 ^ d * 2 ^ f := by linarith [h, mul_assoc (n : ℚ) (2 ^ d) (2 ^ f)]
      exact lt_of_mul_lt_mul_right this pf.le
    have h2 : k + 1 ≤ n * 2 ^ d := by
      have : k < n * 2 ^ d := by exact_mod_cast h1
      omega
    have h3 : (k : ℚ) + 1 ≤ n * 2 ^ d := by exact_mod_cast h2
    have h4 : (k : ℚ) ≤ (1 - 1 / 2 ^ 53) * (n * 2 ^ d) := by
      have p1 : (0 : ℚ) ≤ 1 - 1 / 2 ^ 53 := by norm_num
      have p2 : (k : ℚ) ≤ (1 - 1 / 2 ^ 53) * (k + 1) := by
        have : ((k : ℚ) + 1) * (1 / 2 ^ 53) ≤ 1 := by
          rw [mul_one_div, div_le_one (by positivity)]; linarith
        linarith
      exact p2.trans (mul_le_mul_of_nonneg_left h3 p1)
    calc (k : ℚ) * 2 ^ f ≤ (1 - 1 / 2 ^ 53) * (n * 2 ^ d) * 2 ^ f := mul_le_mul_of_nonneg_right h4 pf.le
      _ = _ := by ring

theorem isF_pred_one : IsF (1 - 1 / 2 ^ 53 : ℚ) :=
  ⟨2 ^ 53 - 1, -53, by norm_num, by norm_num, by norm_num⟩

theorem IsF.abs' {x : ℚ} (h : IsF x) : IsF |x| := by
  rcases abs_choice x with e | e <;> rw [e]
  · exact h
  · exact h.neg

/-- The rounded quotient of finite binary64 numbers of ordered magnitudes is `1` only for equal numbers. -/
theorem round_quot_one (m : Mode) {p q : ℚ} (hp : IsF p) (hq : IsF q) (h : |p| ≤ |q|) (h0 : q ≠ 0) :
    (round m (p / q) = .fin 1 ↔ p = q) ∧ (round m (p / q) = .fin (-1) ↔ p = -q) := by
  have hm := one_le_maxFin
  have small : |p| < |q| → ∃ r, round m (p / q) = .fin r ∧ -1 < r ∧ r < 1 := by
    intro hlt
    have h1 := isF_ratio hp.abs' hq.abs' (abs_nonneg p) hlt
    rw [← abs_div, abs_le] at h1
    obtain ⟨r, h2, h3, h4, -⟩ := round_between m isF_pred_one.neg isF_pred_one
      (by have : (1 - 1 / 2 ^ 53 : ℚ) ≤ 1 := by norm_num
          linarith) (by have : (1 - 1 / 2 ^ 53 : ℚ) ≤ 1 := by norm_num
                        linarith) h1.1 h1.2
    refine ⟨r, h2, lt_of_lt_of_le (by norm_num) h3, lt_of_le_of_lt h4 (by norm_num)⟩
  have r1 : round m 1 = .fin 1 := isF_le_maxFin_round m isF_one hm (by linarith)
  have r2 : round m (-1) = .fin (-1) := isF_le_maxFin_round m isF_one.neg (by linarith) (by linarith)
  rcases h.lt_or_eq with hlt | heq
  · obtain ⟨r, h1, h2, h3⟩ := small hlt
    rw [h1]
    have n1 : p ≠ q := by rintro rfl; exact lt_irrefl _ hlt
    have n2 : p ≠ -q := by rintro rfl; rw [abs_neg] at hlt; exact lt_irrefl _ hlt
    simp only [Dbl.fin.injEq, n1, n2, iff_false]
    exact ⟨h3.ne, h2.ne'⟩
  · rcases abs_eq_abs.1 heq with e | e
    · subst e
      rw [div_self h0, r1]
      have : p ≠ -p := fun hc => h0 (by linarith)
      simp [this]; norm_num
    · subst e
      rw [neg_div, div_self h0, r2]
      have : -q ≠ q := fun hc => h0 (by linarith)
      simp [this]; norm_num

/-- C159: for finite ends (binary64 numbers or integers below `2 ^ 53`) the computed `khi` is `1` exactly for nonzero
degenerate intervals and `-1` exactly for symmetric ones: rounding of the quotient never blurs this, in any mode. -/
theorem C159_khi_one_iff (X : FIv) (m : Mode) (ha : X.a.IntsLe (2 ^ 53 - 1)) (hb : X.b.IntsLe (2 ^ 53 - 1)) (p q : ℚ)
    (hp : X.a.IsB64 p) (hq : X.b.IsB64 q) :
    ((∃ v, X.khiN m = .ok v ∧ v.val = .fin 1) ↔ p = q ∧ q ≠ 0) ∧
      ((∃ v, X.khiN m = .ok v ∧ v.val = .fin (-1)) ↔ p = -q ∧ q ≠ 0) := by
  obtain ⟨c, a, b⟩ := X
  have f1 := fabs_small (ha.mono (C := 2 ^ 53) (by norm_num))
  have f2 := fabs_small (hb.mono (C := 2 ^ 53) (by norm_num))
  have e1 := num_div_vals m ha hb
  have e2 := num_div_vals m hb ha
  have hpv : a.val = .fin p := hp.1
  have hqv : b.val = .fin q := hq.1
  simp only [hpv, hqv] at f1 f2 e1 e2
  simp only [FIv.khiN, f1, f2, e1, e2, Dbl.le, decide_eq_true_eq, Dbl.div]
  by_cases h : |p| ≤ |q|
  · rw [if_pos h]
    by_cases h0 : q = 0
    · simp [h0, Except.map]
    · rw [if_neg h0]
      obtain ⟨r1, r2⟩ := round_quot_one m hp.2.1 hq.2.1 h h0
      simp only [Except.map, Except.ok.injEq, exists_eq_left', Num.val, r1, r2, h0, ne_eq, not_false_eq_true, and_true,
        and_self]
  · have h' : |q| ≤ |p| := (not_le.1 h).le
    have h0 : p ≠ 0 := by rintro rfl; apply h; simp
    rw [if_neg h, if_neg h0]
    obtain ⟨r1, r2⟩ := round_quot_one m hq.2.1 hp.2.1 h' h0
    simp only [Except.map, Except.ok.injEq, exists_eq_left', Num.val, r1, r2]
    constructor
    · exact ⟨fun e => absurd (by rw [e]) h, fun e => absurd (by rw [e.1]) h⟩
    · exact ⟨fun e => absurd (by rw [e, abs_neg]) h, fun e => absurd (by rw [e.1, abs_neg]) h⟩

example : (Num.int 3).IsB64 3 ∧ FIv.khiN .up ⟨.classical, .int 3, .dbl (.fin 3)⟩ = .ok (.dbl (.fin 1)) :=
  ⟨⟨by simp [Num.val], by simpa using isF_int (K := ℚ) (z := 3) (by norm_num), by
    rw [abs_of_pos (by norm_num)]; exact le_trans (by norm_num) two53_le_maxFin⟩, by decide +kernel⟩

/-! ## Where it fails -/

/-- C159: `[-18014398509481994, -18014398509481990].khi` is `1.0000000000000002`: `fabs` rounds both integers to the same
double, so the end of greater magnitude is divided by the other one. -/
theorem C159_khi_false : FIv.khiN .nearest ⟨.classical, .int (-18014398509481994), .int (-18014398509481990)⟩ =
    .ok (.dbl (.fin (1 + 1 / 2 ^ 52))) := by decide +kernel

/-- C159: integers of 1024 bits make `khi` raise `OverflowError`, also for the degenerate interval, whose value is 1. -/
theorem C159_khi_overflow_false : FIv.khiN .nearest ⟨.classical, .int (2 ^ 1024), .int (2 ^ 1024)⟩ =
    .error .overflowError := by decide +kernel

/-- C159: the statement fails; `pro` of `Interval(1, nan, sortQ=False)` is the ordinary interval `[1, 1]`. -/
theorem C159_false : ¬ C159_statement := by
  intro h
  have h1 := (h ⟨.kaucher, .int 1, .dbl .nan⟩ (by simp [FitsClass, Num.val, Dbl.le])).2.1 (Or.inr rfl)
  rw [(C159_pro_nan ⟨.kaucher, .int 1, .dbl .nan⟩).1] at h1
  simp [Num.val] at h1

end IntvalPy
