import Verif.PropsFloatEnc
import Verif.PropsKernel
import Verif.SpecKaucher

/-!
# Natural powers: the float level (C06) and improper intervals (C87)
-/

set_option autoImplicit false
set_option linter.unusedSectionVars false

namespace IntvalPy

open Spec

/-! ## C06 on the float level -/

/-- The number power `pw` in the mode `m` returns `t` for the endpoint `x`, as a float or a small integer. -/
def PowOk (pw : Mode → Num → ℕ → Except Err Num) (m : Mode) (x : Num) (n : ℕ) (t : ℚ) : Prop :=
  ∃ v, pw m x n = .ok v ∧ v.val = .fin t ∧ v.IntsLe (2 ^ 53)

theorem min2_fin {x y : Num} {p q : ℚ} (hx : x.val = .fin p) (hy : y.val = .fin q) : (x.min2 y).val = .fin (min p q) := by
  unfold Num.min2 Num.lt
  rw [hx, hy]
  simp only [Dbl.lt]
  by_cases h : q < p
  · simp [h, hy, min_eq_right h.le]
  · simp [h, hx, min_eq_left (not_lt.1 h)]

theorem max2_fin {x y : Num} {p q : ℚ} (hx : x.val = .fin p) (hy : y.val = .fin q) : (x.max2 y).val = .fin (max p q) := by
  unfold Num.max2 Num.lt
  rw [hx, hy]
  simp only [Dbl.lt]
  by_cases h : p < q
  · simp [h, hy, max_eq_right h.le]
  · simp [h, hx, max_eq_left (not_lt.1 h)]

theorem contains_zero {X : FIv} {p q : ℚ} (hp : X.a.val = .fin p) (hq : X.b.val = .fin q) (c : Cls) :
    X.containsNum (.int 0) = (⟨c, p, q⟩ : Iv ℚ).containsNum 0 := by
  unfold FIv.containsNum Iv.containsNum Num.le
  rw [hp, hq]
  simp [Dbl.le, Num.val]

/-- C06 in binary64: if the powers of the endpoints are finite and rounded as `R` says, the power of the interval
succeeds, leaves the rounding mode alone and is the interval described (and proved to enclose the powers) by
`C06_pow_encloses`; both classes. -/
theorem C06_float_refines (R : Rnd ℚ) (pw : Mode → Num → ℕ → Except Err Num) (X : FIv) (p q : ℚ) (n : ℕ) (s : Mode)
    (hp : X.a.val = .fin p) (hq : X.b.val = .fin q)
    (h1 : PowOk pw .down X.a n (R.dn (p ^ n))) (h2 : PowOk pw .down X.b n (R.dn (q ^ n)))
    (h3 : PowOk pw .up X.a n (R.up (p ^ n))) (h4 : PowOk pw .up X.b n (R.up (q ^ n))) :
    (∃ Y, FIv.powC pw X n s = (.ok Y, s) ∧ Y.cls = .classical ∧
      Y.a.val = .fin ((⟨.classical, p, q⟩ : Iv ℚ).powNat R n).a ∧
      Y.b.val = .fin ((⟨.classical, p, q⟩ : Iv ℚ).powNat R n).b) ∧
    (X.cls = .kaucher → ∃ Y, FIv.powK pw X n s = (.ok Y, s) ∧ Y.cls = ((⟨.kaucher, p, q⟩ : Iv ℚ).powNat R n).cls ∧
      Y.a.val = .fin ((⟨.kaucher, p, q⟩ : Iv ℚ).powNat R n).a ∧
      Y.b.val = .fin ((⟨.kaucher, p, q⟩ : Iv ℚ).powNat R n).b) := by
  obtain ⟨v1, e1, f1, g1⟩ := h1
  obtain ⟨v2, e2, f2, g2⟩ := h2
  obtain ⟨v3, e3, f3, g3⟩ := h3
  obtain ⟨v4, e4, f4, g4⟩ := h4
  constructor
  · have hrun : FIv.powC pw X n s = (.ok (if n % 2 = 0 ∧ X.containsNum (.int 0) then
        ⟨.classical, .dbl (.fin 0), v3.max2 v4⟩ else ⟨.classical, v1.min2 v2, v3.max2 v4⟩), s) := by
      unfold FIv.powC
      simp only [run_bind, run_with, M.op, e1, e2, e3, e4]
      split_ifs <;> rfl
    refine ⟨_, hrun, ?_⟩
    unfold Iv.powNat
    rw [contains_zero hp hq .classical]
    dsimp only
    split_ifs
    · exact ⟨rfl, rfl, max2_fin f3 f4⟩
    · exact ⟨rfl, min2_fin f1 f2, max2_fin f3 f4⟩
  · intro hK
    have hrun : FIv.powK pw X n s = (.ok (if n % 2 = 0 ∧ X.containsNum (.int 0) then
        ⟨.classical, .dbl (.fin 0), (Num.dbl v1.val).max2 (.dbl v4.val)⟩
        else if n % 2 = 0 ∧ (FIv.mk .classical X.proLo X.proHi).containsNum (.int 0) then
          ⟨.kaucher, (Num.dbl v1.val).max2 (.dbl v4.val), .dbl (.fin 0)⟩
        else if (Num.dbl v4.val).lt (.dbl v1.val) then ⟨.kaucher, .dbl v1.val, .dbl v4.val⟩
        else ⟨.classical, .dbl v1.val, .dbl v4.val⟩), s) := by
      unfold FIv.powK
      have a1 := run_store (x := M.op fun m => pw m X.a n) (m := .down) (v := v1) e1 g1
      have a2 := run_store (x := M.op fun m => pw m X.b n) (m := .up) (v := v4) e4 g4
      simp only [run_bind, run_with, a1, a2]
      split_ifs <;> rfl
    refine ⟨_, hrun, ?_⟩
    unfold Iv.powNat
    have m1 : ((Num.dbl v1.val).max2 (.dbl v4.val)).val = .fin (max (R.dn (p ^ n)) (R.up (q ^ n))) := max2_fin f1 f4
    have hpro : (FIv.mk .classical X.proLo X.proHi).containsNum (.int 0) = true ↔
        (⟨.kaucher, p, q⟩ : Iv ℚ).pro.containsNum 0 = true := by
      have h1 : X.proLo.val = .fin (min p q) := by
        unfold FIv.proLo; rw [hK]; exact min2_fin hp hq
      have h2 : X.proHi.val = .fin (max p q) := by
        unfold FIv.proHi; rw [hK]; exact max2_fin hp hq
      rw [contains_zero (X := FIv.mk .classical X.proLo X.proHi) h1 h2 .kaucher]
      rfl
    have hlt : (Num.dbl v4.val).lt (.dbl v1.val) = true ↔ R.up (q ^ n) < R.dn (p ^ n) := by
      unfold Num.lt
      rw [show (Num.dbl v4.val).val = _ from f4, show (Num.dbl v1.val).val = _ from f1]
      simp only [Dbl.lt, decide_eq_true_eq]
    dsimp only
    simp only [hpro, hlt]
    rw [contains_zero hp hq .kaucher]
    split_ifs
    · exact ⟨rfl, rfl, m1⟩
    · exact ⟨rfl, m1, rfl⟩
    · exact ⟨rfl, f1, f4⟩
    · exact ⟨rfl, f1, f4⟩

/-- The powers of the endpoints computed exactly and rounded. -/
def refPow (m : Mode) (x : Num) (n : ℕ) : Except Err Num :=
  match x.val with
  | .fin p => .ok (.dbl (round m (p ^ n)))
  | _ => .error .overflowError

/-- The hypotheses hold: `[-3, 2] ** 2 = [0, 9]` and the improper `[2, -3] ** 2 = [9, 0]`. -/
example : (∃ Y, FIv.powC refPow ⟨.classical, .int (-3), .int 2⟩ 2 .nearest = (.ok Y, .nearest) ∧ Y.a.val = .fin 0 ∧
      Y.b.val = .fin 9) ∧
    ∃ Y, FIv.powK refPow ⟨.kaucher, .int 2, .int (-3)⟩ 2 .up = (.ok Y, .up) ∧ Y.a.val = .fin 9 ∧ Y.b.val = .fin 0 := by
  have r4 : ∀ m, round m ((4 : ℤ) : ℚ) = .fin ((4 : ℤ) : ℚ) := fun m => round_int m (by norm_num)
  have r9 : ∀ m, round m ((9 : ℤ) : ℚ) = .fin ((9 : ℤ) : ℚ) := fun m => round_int m (by norm_num)
  have ok2 : ∀ m, PowOk refPow m (.int 2) 2 (((2 : ℤ) : ℚ) ^ 2) := fun m => by
    refine ⟨.dbl (round m (((2 : ℤ) : ℚ) ^ 2)), rfl, ?_, trivial⟩
    have := r4 m
    norm_num [Num.val] at this ⊢
    exact this
  have ok3 : ∀ m, PowOk refPow m (.int (-3)) 2 (((-3 : ℤ) : ℚ) ^ 2) := fun m => by
    refine ⟨.dbl (round m (((-3 : ℤ) : ℚ) ^ 2)), rfl, ?_, trivial⟩
    have := r9 m
    norm_num [Num.val] at this ⊢
    exact this
  constructor
  · obtain ⟨Y, h1, -, h2, h3⟩ := (C06_float_refines Rnd.exact refPow ⟨.classical, .int (-3), .int 2⟩ _ _ 2 .nearest rfl rfl
      (ok3 _) (ok2 _) (ok3 _) (ok2 _)).1
    refine ⟨Y, h1, h2.trans ?_, h3.trans ?_⟩ <;> norm_num [Iv.powNat, Iv.containsNum]
  · obtain ⟨Y, h1, -, h2, h3⟩ := (C06_float_refines Rnd.exact refPow ⟨.kaucher, .int 2, .int (-3)⟩ _ _ 2 .up rfl rfl
      (ok2 _) (ok3 _) (ok2 _) (ok3 _)).2 rfl
    refine ⟨Y, h1, h2.trans ?_, h3.trans ?_⟩ <;> norm_num [Iv.powNat, Iv.containsNum, Iv.pro]

/-- C06: an exception in the power of an endpoint is passed on, with the mode restored. -/
theorem C06_float_raises (pw : Mode → Num → ℕ → Except Err Num) (X : FIv) (n : ℕ) (s : Mode) (e : Err)
    (h : pw .down X.a n = .error e) : FIv.powC pw X n s = (.error e, s) ∧ FIv.powK pw X n s = (.error e, s) := by
  constructor
  · unfold FIv.powC
    simp only [run_bind, run_with, M.op, h]
  · unfold FIv.powK FIv.store
    simp only [run_bind, run_with, M.op, h]

/-! ## C87: improper intervals -/

variable {K : Type*} [Field K] [LinearOrder K] [IsStrictOrderedRing K]

/-- C87, full statement, without rounding: a positive power of an improper interval `[a, b]`, `b < a`, is the dual of the
power of the proper interval `[b, a]`: its endpoints, swapped, are the range of `x ↦ xⁿ` on `[b, a]`. -/
def C87_statement (X : Iv K) (n : ℕ) : Prop :=
  IsRange (⟨.classical, (X.powNat Rnd.exact n).b, (X.powNat Rnd.exact n).a⟩ : Iv K)
    (fun s => ∃ x, X.b ≤ x ∧ x ≤ X.a ∧ s = x ^ n)

/-- C87, partial: true unless the exponent is even and the interval negative; then the result is a proper interval.
Missing: exactly these cases, in which the statement is false. -/
theorem C87_power_partial (X : Iv K) (n : ℕ) (hn : 0 < n) (hk : X.cls = .kaucher) (hab : X.b < X.a) :
    (C87_statement X n ↔ ¬ (n % 2 = 0 ∧ X.a < 0)) ∧
    (n % 2 = 0 ∧ X.a < 0 → (X.powNat Rnd.exact n).cls = .classical ∧
      (X.powNat Rnd.exact n).a < (X.powNat Rnd.exact n).b) := by
  obtain ⟨c, a, b⟩ := X
  simp only at hk hab
  subst hk
  have hbad : n % 2 = 0 ∧ a < 0 → ((⟨.kaucher, a, b⟩ : Iv K).powNat Rnd.exact n) = ⟨.classical, a ^ n, b ^ n⟩ ∧ a ^ n < b ^ n := by
    rintro ⟨he, ha⟩
    have hlt : a ^ n < b ^ n := by
      obtain ⟨k, rfl⟩ := Nat.even_iff.2 he |>.exists_two_nsmul
      rw [smul_eq_mul, pow_mul, pow_mul]
      exact pow_lt_pow_left₀ (by nlinarith) (sq_nonneg a) (by rintro rfl; simp at hn)
    refine ⟨?_, hlt⟩
    unfold Iv.powNat
    simp only [Rnd.exact_dn, Rnd.exact_up, id]
    rw [if_neg, if_neg, if_neg (not_lt.2 hlt.le)]
    · rintro ⟨-, h⟩
      simp [Iv.pro, Iv.containsNum] at h
      rcases h.2 with h | h <;> linarith
    · rintro ⟨-, h⟩
      simp [Iv.containsNum] at h
      linarith [h.2]
  refine ⟨⟨fun h hx => ?_, fun h => ?_⟩, fun h => ?_⟩
  · obtain ⟨e, hlt⟩ := hbad hx
    unfold C87_statement at h
    rw [e] at h
    have := (Iv.mem_def.1 (h.1 (a ^ n) ⟨a, hab.le, le_refl _, rfl⟩)).1
    exact absurd hlt (not_lt.2 this)
  · have hr := C06_pow_range (⟨.classical, b, a⟩ : Iv K) n hn ⟨rfl, hab.le⟩
    have hs : (fun s => ∃ x ∈ (⟨.classical, b, a⟩ : Iv K), s = x ^ n) = fun s => ∃ x, b ≤ x ∧ x ≤ a ∧ s = x ^ n := by
      funext s
      simp only [Iv.mem_def, and_assoc]
    rw [hs] at hr
    have e : ((⟨.classical, ((⟨.kaucher, a, b⟩ : Iv K).powNat Rnd.exact n).b, ((⟨.kaucher, a, b⟩ : Iv K).powNat Rnd.exact n).a⟩ : Iv K)) =
        (⟨.classical, b, a⟩ : Iv K).powNat Rnd.exact n := by
      unfold Iv.powNat
      simp only [Rnd.exact_dn, Rnd.exact_up, id]
      have c0 : (⟨.kaucher, a, b⟩ : Iv K).containsNum 0 = false := by
        simp only [Iv.containsNum, Bool.and_eq_false_iff, decide_eq_false_iff_not, not_le]
        by_contra h'
        push Not at h'
        linarith [h'.1, h'.2]
      have c1 : (⟨.kaucher, a, b⟩ : Iv K).pro.containsNum 0 = (⟨.classical, b, a⟩ : Iv K).containsNum 0 := by
        unfold Iv.pro Iv.containsNum
        simp only [min_eq_right hab.le, max_eq_left hab.le]
      rw [c0, c1]
      simp only [Bool.false_eq_true, and_false, if_false]
      by_cases hz : n % 2 = 0 ∧ (⟨.classical, b, a⟩ : Iv K).containsNum 0 = true
      · rw [if_pos hz, if_pos hz, max_comm]
      · rw [if_neg hz, if_neg hz]
        have hle : b ^ n ≤ a ^ n := by
          rcases Nat.mod_two_eq_zero_or_one n with he | ho
          · have ha : 0 ≤ a := not_lt.1 fun ha => h ⟨he, ha⟩
            have hb : 0 ≤ b := by
              by_contra hb
              exact hz ⟨he, by simp [Iv.containsNum, (not_le.1 hb).le, ha]⟩
            exact pow_le_pow_left₀ hb hab.le n
          · exact (Odd.strictMono_pow (Nat.odd_iff.2 ho)).monotone hab.le
        rw [min_eq_left hle, max_eq_right hle]
        split_ifs <;> rfl
    unfold C87_statement
    rw [e]
    exact hr
  · obtain ⟨e, hlt⟩ := hbad h
    rw [e]
    exact ⟨rfl, hlt⟩

/-- C87: false: `[-1, -2] ** 2` is the proper interval `[1, 4]`, although `[-1, -2] * [-1, -2]` and the dual of
`[-2, -1] ** 2` are `[4, 1]`. -/
theorem C87_false : ¬ C87_statement (⟨.kaucher, -1, -2⟩ : Iv ℚ) 2 ∧
    (⟨.kaucher, -1, -2⟩ : Iv ℚ).powNat Rnd.exact 2 = ⟨.classical, 1, 4⟩ ∧
    ((⟨.classical, -2, -1⟩ : Iv ℚ).powNat Rnd.exact 2).dual = ⟨.kaucher, 4, 1⟩ ∧
    SameEnds (Iv.mul Rnd.exact ⟨.kaucher, -1, -2⟩ ⟨.kaucher, -1, -2⟩) (⟨.kaucher, 4, 1⟩ : Iv ℚ) := by
  refine ⟨fun h => ?_, by decide +kernel, by decide +kernel, by unfold SameEnds; decide +kernel⟩
  exact ((C87_power_partial _ 2 (by norm_num) rfl (by norm_num)).1.1 h) ⟨rfl, by norm_num⟩

example : C87_statement (⟨.kaucher, 2, -3⟩ : Iv ℚ) 2 ∧ C87_statement (⟨.kaucher, -1, -2⟩ : Iv ℚ) 3 :=
  ⟨(C87_power_partial _ 2 (by norm_num) rfl (by norm_num)).1.2 (by norm_num),
    (C87_power_partial _ 3 (by norm_num) rfl (by norm_num)).1.2 (by norm_num)⟩

/-- C87 for every rounding: the power of an improper interval contains the power computed without rounding, in the sense of
Kaucher inclusion, exactly unless the exponent is even, the interval spans zero, and the power of the negative end is the
greater one and is rounded upwards. -/
theorem C87_outward (R : Rnd K) (X : Iv K) (n : ℕ) (hk : X.cls = .kaucher) (hab : X.b < X.a) :
    ((X.powNat R n).a ≤ (X.powNat Rnd.exact n).a ∧ (X.powNat Rnd.exact n).b ≤ (X.powNat R n).b) ↔
      ¬ (n % 2 = 0 ∧ X.b ≤ 0 ∧ 0 ≤ X.a ∧ max (X.a ^ n) (X.b ^ n) < R.up (X.b ^ n)) := by
  obtain ⟨c, a, b⟩ := X
  simp only at hk hab
  subst hk
  have c0 : (⟨.kaucher, a, b⟩ : Iv K).containsNum 0 = false := by
    simp only [Iv.containsNum, Bool.and_eq_false_iff, decide_eq_false_iff_not, not_le]
    by_contra h'
    push Not at h'
    linarith [h'.1, h'.2]
  have c1 : (⟨.kaucher, a, b⟩ : Iv K).pro.containsNum 0 = true ↔ b ≤ 0 ∧ 0 ≤ a := by
    unfold Iv.pro Iv.containsNum
    simp only [min_eq_right hab.le, max_eq_left hab.le, Bool.and_eq_true, decide_eq_true_eq]
  unfold Iv.powNat
  simp only [Rnd.exact_dn, Rnd.exact_up, id, c0, Bool.false_eq_true, and_false, if_false]
  by_cases hz : n % 2 = 0 ∧ (⟨.kaucher, a, b⟩ : Iv K).pro.containsNum 0 = true
  · rw [if_pos hz, if_pos hz]
    have hz' := c1.1 hz.2
    constructor
    · rintro ⟨h, -⟩ ⟨-, -, -, h'⟩
      exact absurd ((le_max_right _ _).trans h) (not_le.2 h')
    · intro h
      refine ⟨max_le ((R.dn_le _).trans (le_max_left _ _)) ?_, le_refl _⟩
      by_contra h'
      exact h ⟨hz.1, hz'.1, hz'.2, not_le.1 h'⟩
  · rw [if_neg hz, if_neg hz]
    constructor
    · rintro - ⟨h1, h2, h3, -⟩
      exact hz ⟨h1, c1.2 ⟨h2, h3⟩⟩
    · intro _
      split_ifs <;> exact ⟨R.dn_le _, R.le_up _⟩

/-- The exceptional case occurs in binary64: `[1, -(1 + 2^-30)] ** 2` is rounded inwards. -/
theorem C87_outward_false : ¬ (((⟨.kaucher, 1, -(1 + 1 / 2 ^ 30)⟩ : Iv ℚ).powNat Rnd.b64 2).a ≤
    ((⟨.kaucher, 1, -(1 + 1 / 2 ^ 30)⟩ : Iv ℚ).powNat Rnd.exact 2).a) := by decide +kernel

/-- And the ordinary case: `[2, -1] ** 2` in binary64. -/
example : ((⟨.kaucher, 2, -1⟩ : Iv ℚ).powNat Rnd.b64 2) = ⟨.kaucher, 4, 0⟩ := by decide +kernel

end IntvalPy
