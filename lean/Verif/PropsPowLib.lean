import Verif.PropsPower
import Verif.PropsUtils

/-!
# C121: natural powers computed by a library that ignores the rounding mode

`X ** n` switches the rounding mode and computes `a ** n` of the endpoints,
/repo/intvalpy/kernel/interval_arithmetics.pyx:469-478.  For floats this is the C function `pow`, and neither the C
standard nor the usual libraries promise that `pow` follows the rounding mode; they promise an error of about one
unit in the last place.  So the directed powers assumed in C06 are more than a user can count on.
-/

set_option autoImplicit false
set_option linter.unusedSectionVars false

namespace IntvalPy

open Spec

/-- The powers of the endpoints have a relative error of at most `e`, in whatever rounding mode. -/
def PowAccurate (pw : Mode → Num → ℕ → Except Err Num) (e : ℚ) : Prop :=
  ∀ m (x : Num) p n, x.val = .fin p → ∀ v, pw m x n = .ok v → ∃ r, v.val = .fin r ∧ |r - p ^ n| ≤ e * |p ^ n|

/-- C121, full statement: with accurate powers of the endpoints (one unit in the last place), whenever the power of
an ordinary interval is computed it encloses the powers of its elements. -/
def C121_statement : Prop :=
  ∀ (pw : Mode → Num → ℕ → Except Err Num), PowAccurate pw (2 ^ (-52 : ℤ)) →
    ∀ (X : FIv) (p q : ℚ) (n : ℕ) (s : Mode) (Y : FIv), X.a.val = .fin p → X.b.val = .fin q → p ≤ q →
      FIv.powC pw X n s = (.ok Y, s) →
      ∃ α β, Y.a.val = .fin α ∧ Y.b.val = .fin β ∧ ∀ x, p ≤ x → x ≤ q → α ≤ x ^ n ∧ x ^ n ≤ β

/-- What `powC` does when it returns. -/
theorem powC_ok (pw : Mode → Num → ℕ → Except Err Num) (X : FIv) (n : ℕ) (s : Mode) (Y : FIv)
    (h : FIv.powC pw X n s = (.ok Y, s)) : ∃ v1 v2 v3 v4, pw .down X.a n = .ok v1 ∧ pw .down X.b n = .ok v2 ∧
      pw .up X.a n = .ok v3 ∧ pw .up X.b n = .ok v4 ∧
      Y = if n % 2 = 0 ∧ X.containsNum (.int 0) then ⟨.classical, .dbl (.fin 0), v3.max2 v4⟩
        else ⟨.classical, v1.min2 v2, v3.max2 v4⟩ := by
  have run_pure : ∀ (a : Num) (m : Mode), (pure a : M Num) m = (.ok a, m) := fun _ _ => rfl
  unfold FIv.powC at h
  cases e1 : pw .down X.a n with
  | error e => simp [run_bind, run_with, M.op, e1] at h
  | ok v1 =>
  cases e2 : pw .down X.b n with
  | error e => simp [run_bind, run_with, M.op, e1, e2] at h
  | ok v2 =>
  cases e3 : pw .up X.a n with
  | error e => simp [run_bind, run_with, M.op, e1, e2, e3, run_pure] at h
  | ok v3 =>
  cases e4 : pw .up X.b n with
  | error e => simp [run_bind, run_with, M.op, e1, e2, e3, e4, run_pure] at h
  | ok v4 =>
  refine ⟨v1, v2, v3, v4, rfl, rfl, rfl, rfl, ?_⟩
  simp only [run_bind, run_with, M.op, e1, e2, e3, e4] at h
  split_ifs at h ⊢ <;> exact (Except.ok.inj (Prod.mk.inj h).1).symm

/-- C121: what holds with powers of relative error `e`: every power of an element lies in the result widened by
`e` times the greatest power of the endpoints. -/
theorem C121_partial (pw : Mode → Num → ℕ → Except Err Num) (e : ℚ) (he : 0 ≤ e) (hpw : PowAccurate pw e)
    (X : FIv) (p q : ℚ) (n : ℕ) (s : Mode) (Y : FIv) (hp : X.a.val = .fin p) (hq : X.b.val = .fin q) (hpq : p ≤ q)
    (h : FIv.powC pw X n s = (.ok Y, s)) :
    ∃ α β, Y.a.val = .fin α ∧ Y.b.val = .fin β ∧ ∀ x, p ≤ x → x ≤ q →
      α - e * max |p ^ n| |q ^ n| ≤ x ^ n ∧ x ^ n ≤ β + e * max |p ^ n| |q ^ n| := by
  obtain ⟨v1, v2, v3, v4, e1, e2, e3, e4, rfl⟩ := powC_ok pw X n s Y h
  obtain ⟨r1, f1, g1⟩ := hpw _ _ p n hp _ e1
  obtain ⟨r2, f2, g2⟩ := hpw _ _ q n hq _ e2
  obtain ⟨r3, f3, g3⟩ := hpw _ _ p n hp _ e3
  obtain ⟨r4, f4, g4⟩ := hpw _ _ q n hq _ e4
  have m1 := mul_le_mul_of_nonneg_left (le_max_left |p ^ n| |q ^ n|) he
  have m2 := mul_le_mul_of_nonneg_left (le_max_right |p ^ n| |q ^ n|) he
  set t := e * max |p ^ n| |q ^ n| with ht
  have t0 : 0 ≤ t := mul_nonneg he (le_max_of_le_left (abs_nonneg _))
  obtain ⟨a1, a2⟩ := abs_le.1 (g1.trans m1)
  obtain ⟨b1, b2⟩ := abs_le.1 (g2.trans m2)
  obtain ⟨c1, c2⟩ := abs_le.1 (g3.trans m1)
  obtain ⟨d1, d2⟩ := abs_le.1 (g4.trans m2)
  have up : max (p ^ n) (q ^ n) ≤ max r3 r4 + t :=
    max_le (by linarith [le_max_left r3 r4]) (by linarith [le_max_right r3 r4])
  have lo : min r1 r2 - t ≤ min (p ^ n) (q ^ n) :=
    le_min (by linarith [min_le_left r1 r2]) (by linarith [min_le_right r1 r2])
  have hz := contains_zero hp hq .classical
  split_ifs with hc
  · refine ⟨0, max r3 r4, rfl, max2_fin f3 f4, fun x h1 h2 => ?_⟩
    have hn : Even n := Nat.even_iff.mpr hc.1
    exact ⟨by linarith [hn.pow_nonneg x], (pow_le_max_of_even hn ⟨h1, h2⟩).trans up⟩
  · refine ⟨min r1 r2, max r3 r4, min2_fin f1 f2, max2_fin f3 f4, fun x h1 h2 => ?_⟩
    have h' : ¬ (n % 2 = 0 ∧ (p ≤ 0 ∧ 0 ≤ q)) := by
      rintro ⟨k1, k2⟩
      refine hc ⟨k1, ?_⟩
      rw [hz]
      exact containsNum_iff.mpr k2
    have := pow_mem_corners (a := p) (b := q) ⟨h1, h2⟩ h'
    exact ⟨lo.trans this.1, this.2.trans up⟩

/-- C121 for a base without negative elements: the ends of the result are at most the relative error `e` on the wrong
side. -/
theorem C121_nonneg (pw : Mode → Num → ℕ → Except Err Num) (e : ℚ) (he : 0 ≤ e) (he1 : e ≤ 1) (hpw : PowAccurate pw e)
    (X : FIv) (p q : ℚ) (n : ℕ) (s : Mode) (Y : FIv) (hp : X.a.val = .fin p) (hq : X.b.val = .fin q) (h0 : 0 ≤ p)
    (h : FIv.powC pw X n s = (.ok Y, s)) :
    ∃ α β, Y.a.val = .fin α ∧ Y.b.val = .fin β ∧ ∀ x, p ≤ x → x ≤ q →
      α ≤ (1 + e) * x ^ n ∧ (1 - e) * x ^ n ≤ β := by
  obtain ⟨v1, v2, v3, v4, e1, e2, e3, e4, rfl⟩ := powC_ok pw X n s Y h
  obtain ⟨r1, f1, g1⟩ := hpw _ _ p n hp _ e1
  obtain ⟨r2, f2, g2⟩ := hpw _ _ q n hq _ e2
  obtain ⟨r3, f3, g3⟩ := hpw _ _ p n hp _ e3
  obtain ⟨r4, f4, g4⟩ := hpw _ _ q n hq _ e4
  rw [abs_of_nonneg (pow_nonneg h0 n)] at g1
  obtain ⟨a1, a2⟩ := abs_le.1 g1
  have key : ∀ x, p ≤ x → x ≤ q → r1 ≤ (1 + e) * x ^ n ∧ (1 - e) * x ^ n ≤ r4 := by
    intro x h1 h2
    have px := pow_le_pow_left₀ h0 h1 n
    have xq := pow_le_pow_left₀ (h0.trans h1) h2 n
    have q0 : 0 ≤ q ^ n := pow_nonneg (h0.trans (h1.trans h2)) n
    rw [abs_of_nonneg q0] at g4
    obtain ⟨d1, d2⟩ := abs_le.1 g4
    constructor
    · calc r1 ≤ (1 + e) * p ^ n := by linarith
        _ ≤ _ := mul_le_mul_of_nonneg_left px (by linarith)
    · calc (1 - e) * x ^ n ≤ (1 - e) * q ^ n := mul_le_mul_of_nonneg_left xq (by linarith)
        _ ≤ r4 := by linarith
  split_ifs with hc
  · refine ⟨0, max r3 r4, rfl, max2_fin f3 f4, fun x h1 h2 => ⟨?_, (key x h1 h2).2.trans (le_max_right _ _)⟩⟩
    exact mul_nonneg (by linarith) (pow_nonneg (h0.trans h1) n)
  · exact ⟨min r1 r2, max r3 r4, min2_fin f1 f2, max2_fin f3 f4, fun x h1 h2 =>
      ⟨(min_le_left _ _).trans (key x h1 h2).1, (key x h1 h2).2.trans (le_max_right _ _)⟩⟩

/-- Powers rounded to nearest in every mode; exceptions outside the range of normal numbers. -/
def nearPow (_m : Mode) (x : Num) (n : ℕ) : Except Err Num :=
  match x.val with
  | .fin p =>
      if p ^ n = 0 ∨ (2 ^ (-1022 : ℤ) ≤ |p ^ n| ∧ |p ^ n| ≤ 2 ^ (1023 : ℤ)) then .ok (.dbl (.fin (nearTo (p ^ n))))
      else .error .overflowError
  | _ => .error .overflowError

/-- They are accurate. -/
theorem nearPow_accurate : PowAccurate nearPow (2 ^ (-52 : ℤ)) := by
  intro m x p n hx v hv
  unfold nearPow at hv
  rw [hx] at hv
  simp only at hv
  by_cases hc : p ^ n = 0 ∨ (2 ^ (-1022 : ℤ) ≤ |p ^ n| ∧ |p ^ n| ≤ 2 ^ (1023 : ℤ))
  · rw [if_pos hc] at hv
    obtain rfl := Except.ok.inj hv
    refine ⟨_, rfl, ?_⟩
    rcases hc with h0 | ⟨h1, -⟩
    · rw [h0, nearTo_of_isF isF_zero]; simp
    · have h := nearTo_err (p ^ n)
      have e1 : (2 : ℚ) ^ (-1075 : ℤ) = 2 ^ (-53 : ℤ) * 2 ^ (-1022 : ℤ) := by
        rw [← zpow_add₀ (by norm_num)]; norm_num
      have e2 : (2 : ℚ) ^ (-52 : ℤ) = 2 * 2 ^ (-53 : ℤ) := by norm_num
      have h3 : (2 : ℚ) ^ (-53 : ℤ) * 2 ^ (-1022 : ℤ) ≤ 2 ^ (-53 : ℤ) * |p ^ n| :=
        mul_le_mul_of_nonneg_left h1 (zpow_pos (by norm_num) _).le
      rw [e1] at h
      rw [e2]
      linarith
  · rw [if_neg hc] at hv
    exact absurd hv (by simp)

/-- C121 is false: with powers rounded to nearest, `[t, t] ** 2` for `t = 2^27 + 1` is a single number different from
`t^2`. -/
theorem C121_false : ¬ C121_statement := by
  intro h
  obtain ⟨α, β, h1, h2, h3⟩ := h nearPow nearPow_accurate ⟨.classical, .dbl (.fin 134217729), .dbl (.fin 134217729)⟩
    134217729 134217729 2 .nearest
    ⟨.classical, .dbl (.fin 18014398777917440), .dbl (.fin 18014398777917440)⟩ rfl rfl (le_refl _) (by decide +kernel)
  obtain rfl : α = 18014398777917440 := (Dbl.fin.inj h1).symm
  obtain rfl : β = 18014398777917440 := (Dbl.fin.inj h2).symm
  have := h3 134217729 (le_refl _) (le_refl _)
  norm_num at this

/-- The hypotheses of `C121_partial` hold, with a result that misses powers on both sides by less than the bound:
`[t, t + 2] ** 2`, `t = 2^27 + 1`, ends below `(t + 2)^2`. -/
example : ∃ Y, FIv.powC nearPow ⟨.classical, .dbl (.fin 134217729), .dbl (.fin 134217731)⟩ 2 .nearest = (.ok Y, .nearest) ∧
    Y.b.val = .fin 18014399314788360 ∧ (18014399314788360 : ℚ) < 134217731 ^ 2 ∧
    (134217731 : ℚ) ^ 2 ≤ 18014399314788360 + 2 ^ (-52 : ℤ) * max |(134217729 : ℚ) ^ 2| |(134217731 : ℚ) ^ 2| := by
  refine ⟨⟨.classical, .dbl (.fin 18014398777917440), .dbl (.fin 18014399314788360)⟩, ?_, rfl, by norm_num, ?_⟩
  · decide +kernel
  · decide +kernel

end IntvalPy
