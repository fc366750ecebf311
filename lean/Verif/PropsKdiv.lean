import Verif.ModelPSS
import Verif.ProofsFloat
import Verif.PropsUtils
import Verif.PropsKernel
import Mathlib.Tactic.FieldSimp
import Mathlib.Tactic.Ring
import Mathlib.Tactic.Linarith
import Mathlib.Algebra.Order.Ring.Rat
import Mathlib.Tactic.NormNum

/-!
# The extended division of PSS (C53)
-/

set_option autoImplicit false
set_option linter.unusedSectionVars false

namespace IntvalPy

open Spec

variable {K : Type*} [Field K] [LinearOrder K] [IsStrictOrderedRing K]

/-- Membership in an interval with possibly infinite endpoints. -/
def XIv.Mem (p : XIv K) (t : K) : Prop := (∀ l, p.lo = some l → l ≤ t) ∧ ∀ h, p.hi = some h → t ≤ h

/-- The numbers `t` with `a' = b' t` for some `a'` in `a` and `b'` in `b`. -/
def Quot (a b : Iv K) (t : K) : Prop := ∃ a' ∈ a, ∃ b' ∈ b, a' = b' * t

theorem XIv.mem_left (q t : K) : XIv.Mem ⟨none, some q⟩ t ↔ t ≤ q := by simp [XIv.Mem]
theorem XIv.mem_right (q t : K) : XIv.Mem ⟨some q, none⟩ t ↔ q ≤ t := by simp [XIv.Mem]

/-- Negative dividends, positive quotient: the largest dividend by the most negative divisor. -/
theorem quot_neg_pos {a b : Iv K} (ha : a.a ≤ a.b) (ha0 : a.b < 0) (hb : b.a < 0) (hb0 : 0 ≤ b.b) (t : K) :
    (0 < t ∧ Quot a b t) ↔ a.b / b.a ≤ t := by
  constructor
  · rintro ⟨ht, a', h1, b', h2, rfl⟩
    rw [Iv.mem_def] at h1 h2
    rw [div_le_iff_of_neg hb]
    nlinarith
  · intro h
    have ht : 0 < t := lt_of_lt_of_le (div_pos_of_neg_of_neg ha0 hb) h
    rw [div_le_iff_of_neg hb] at h
    refine ⟨ht, a.b, ⟨ha, le_rfl⟩, a.b / t, ⟨?_, ?_⟩, ?_⟩
    · rw [le_div_iff₀ ht]; linarith
    · rw [div_le_iff₀ ht]; nlinarith
    · rw [div_mul_cancel₀ _ ht.ne']

/-- Negative dividends, negative quotient. -/
theorem quot_neg_neg {a b : Iv K} (ha : a.a ≤ a.b) (ha0 : a.b < 0) (hb : b.a ≤ 0) (hb0 : 0 < b.b) (t : K) :
    (t < 0 ∧ Quot a b t) ↔ t ≤ a.b / b.b := by
  constructor
  · rintro ⟨ht, a', h1, b', h2, rfl⟩
    rw [Iv.mem_def] at h1 h2
    rw [le_div_iff₀ hb0]
    nlinarith
  · intro h
    have ht : t < 0 := lt_of_le_of_lt h (div_neg_of_neg_of_pos ha0 hb0)
    rw [le_div_iff₀ hb0] at h
    refine ⟨ht, a.b, ⟨ha, le_rfl⟩, a.b / t, ⟨?_, ?_⟩, ?_⟩
    · rw [le_div_iff_of_neg ht]; nlinarith
    · rw [div_le_iff_of_neg ht]; linarith
    · rw [div_mul_cancel₀ _ ht.ne]

/-- Positive dividends, positive quotient. -/
theorem quot_pos_pos {a b : Iv K} (ha : a.a ≤ a.b) (ha0 : 0 < a.a) (hb : b.a ≤ 0) (hb0 : 0 < b.b) (t : K) :
    (0 < t ∧ Quot a b t) ↔ a.a / b.b ≤ t := by
  constructor
  · rintro ⟨ht, a', h1, b', h2, rfl⟩
    rw [Iv.mem_def] at h1 h2
    rw [div_le_iff₀ hb0]
    nlinarith
  · intro h
    have ht : 0 < t := lt_of_lt_of_le (div_pos ha0 hb0) h
    rw [div_le_iff₀ hb0] at h
    refine ⟨ht, a.a, ⟨le_rfl, ha⟩, a.a / t, ⟨?_, ?_⟩, ?_⟩
    · rw [le_div_iff₀ ht]; nlinarith
    · rw [div_le_iff₀ ht]; linarith
    · rw [div_mul_cancel₀ _ ht.ne']

/-- Positive dividends, negative quotient. -/
theorem quot_pos_neg {a b : Iv K} (ha : a.a ≤ a.b) (ha0 : 0 < a.a) (hb : b.a < 0) (hb0 : 0 ≤ b.b) (t : K) :
    (t < 0 ∧ Quot a b t) ↔ t ≤ a.a / b.a := by
  constructor
  · rintro ⟨ht, a', h1, b', h2, rfl⟩
    rw [Iv.mem_def] at h1 h2
    rw [le_div_iff_of_neg hb]
    nlinarith
  · intro h
    have ht : t < 0 := lt_of_le_of_lt h (div_neg_of_pos_of_neg ha0 hb)
    rw [le_div_iff_of_neg hb] at h
    refine ⟨ht, a.a, ⟨le_rfl, ha⟩, a.a / t, ⟨?_, ?_⟩, ?_⟩
    · rw [le_div_iff_of_neg ht]; linarith
    · rw [div_le_iff_of_neg ht]; nlinarith
    · rw [div_mul_cancel₀ _ ht.ne]

theorem quot_ne_zero {a b : Iv K} (h : ¬ (0 : K) ∈ a) {t : K} (ht : Quot a b t) : t ≠ 0 := by
  rintro rfl
  obtain ⟨a', h1, b', -, rfl⟩ := ht
  rw [mul_zero] at h1
  exact h h1

/-- Negative dividends and nonnegative divisors have no positive quotient, and so on. -/
theorem quot_sign {a b : Iv K} {t : K} (ht : Quot a b t) :
    (a.b < 0 → 0 ≤ b.a → t < 0) ∧ (a.b < 0 → b.b ≤ 0 → 0 < t) ∧ (0 < a.a → 0 ≤ b.a → 0 < t) ∧
      (0 < a.a → b.b ≤ 0 → t < 0) := by
  obtain ⟨a', h1, b', h2, rfl⟩ := ht
  rw [Iv.mem_def] at h1 h2
  refine ⟨fun h3 h4 => ?_, fun h3 h4 => ?_, fun h3 h4 => ?_, fun h3 h4 => ?_⟩ <;>
    by_contra hn <;> rw [not_lt] at hn
  · nlinarith [mul_nonneg (h4.trans h2.1) hn]
  · nlinarith [mul_nonneg_of_nonpos_of_nonpos (h2.2.trans h4) hn]
  · nlinarith [mul_nonpos_of_nonneg_of_nonpos (h4.trans h2.1) hn]
  · nlinarith [mul_nonpos_of_nonpos_of_nonneg (h2.2.trans h4) hn]

theorem classicRow_iff {R : Rnd K} (hnr : ∀ x, R.nr x = x) (z : Iv K) : classicRow R z = true ↔ 0 < z.a * z.b := by
  simp [classicRow, hnr]

/-- The result of the division is one interval, or a left and a right ray for a divisor with zero inside. -/
inductive KdivRes (R : Rnd K) (a b : Iv K) : List (XIv K) → Prop
  | one (p : XIv K) (h : ∀ t, p.Mem t ↔ Quot a b t) : KdivRes R a b [p]
  | two (p q : XIv K) (hp : ∀ t, p.Mem t ↔ t < 0 ∧ Quot a b t) (hq : ∀ t, q.Mem t ↔ 0 < t ∧ Quot a b t)
      (hnum : numFunc R b = 2) : KdivRes R a b [p, q]

theorem kdiv_spec {R : Rnd K} (hnr : ∀ x, R.nr x = x) (a b : Iv K) (ha : a.a ≤ a.b) (hb : b.a ≤ b.b)
    (h0 : (0 : K) ∈ b) (ps : List (XIv K)) (h : kdiv R a b (numFunc R b) = .ok ps) : KdivRes R a b ps := by
  rw [Iv.mem_def] at h0
  have hcl : classicRow R b = false := by
    rw [Bool.eq_false_iff]
    intro hc
    rw [classicRow_iff hnr] at hc
    exact absurd hc (not_lt.2 (mul_nonpos_of_nonpos_of_nonneg h0.1 h0.2))
  unfold kdiv at h
  split_ifs at h with h1 h2 h3
  · injection h with h
    subst h
    refine .one _ fun t => ⟨fun _ => ⟨0, containsNum_iff.1 h1, 0, h0, by simp⟩, fun _ => by simp [XIv.Mem]⟩
  · have hna : ¬ (0 : K) ∈ a := fun hc => absurd hc.2 (not_le.2 h2)
    by_cases hba : b.a = 0
    · have hnum : numFunc R b = 0 := by simp [numFunc, hcl, hba]
      rw [hnum] at h
      simp only [kdivTable, leftRay, fdiv] at h
      split_ifs at h with hbb
      · cases h
      · injection h with h
        subst h
        have hbb : 0 < b.b := lt_of_le_of_ne h0.2 (Ne.symm hbb)
        refine .one _ fun t => ?_
        rw [XIv.mem_left, hnr, ← quot_neg_neg ha h2 h0.1 hbb]
        exact ⟨And.right, fun hq => ⟨(quot_sign hq).1 h2 hba.ge, hq⟩⟩
    · by_cases hbb : b.b = 0
      · have hnum : numFunc R b = 1 := by simp [numFunc, hcl, hba, hbb]
        rw [hnum] at h
        simp only [kdivTable, rightRay, fdiv, if_neg hba] at h
        injection h with h
        subst h
        have hba : b.a < 0 := lt_of_le_of_ne h0.1 hba
        refine .one _ fun t => ?_
        rw [XIv.mem_right, hnr, ← quot_neg_pos ha h2 hba h0.2]
        exact ⟨And.right, fun hq => ⟨(quot_sign hq).2.1 h2 hbb.le, hq⟩⟩
      · have hnum : numFunc R b = 2 := by simp [numFunc, hcl, hba, hbb]
        rw [hnum] at h
        simp only [kdivTable, rightRay, leftRay, fdiv, if_neg hba, if_neg hbb, twoRays] at h
        injection h with h
        subst h
        have hba : b.a < 0 := lt_of_le_of_ne h0.1 hba
        have hbb : 0 < b.b := lt_of_le_of_ne h0.2 (Ne.symm hbb)
        refine .two _ _ (fun t => ?_) (fun t => ?_) hnum
        · rw [XIv.mem_left, hnr, ← quot_neg_neg ha h2 h0.1 hbb]
        · rw [XIv.mem_right, hnr, ← quot_neg_pos ha h2 hba h0.2]
  · have hna : ¬ (0 : K) ∈ a := fun hc => absurd hc.1 (not_le.2 h3)
    by_cases hba : b.a = 0
    · have hnum : numFunc R b = 0 := by simp [numFunc, hcl, hba]
      rw [hnum] at h
      simp only [kdivTable, rightRay, fdiv] at h
      split_ifs at h with hbb
      · cases h
      · injection h with h
        subst h
        have hbb : 0 < b.b := lt_of_le_of_ne h0.2 (Ne.symm hbb)
        refine .one _ fun t => ?_
        rw [XIv.mem_right, hnr, ← quot_pos_pos ha h3 h0.1 hbb]
        exact ⟨And.right, fun hq => ⟨(quot_sign hq).2.2.1 h3 hba.ge, hq⟩⟩
    · by_cases hbb : b.b = 0
      · have hnum : numFunc R b = 1 := by simp [numFunc, hcl, hba, hbb]
        rw [hnum] at h
        simp only [kdivTable, leftRay, fdiv, if_neg hba] at h
        injection h with h
        subst h
        have hba : b.a < 0 := lt_of_le_of_ne h0.1 hba
        refine .one _ fun t => ?_
        rw [XIv.mem_left, hnr, ← quot_pos_neg ha h3 hba h0.2]
        exact ⟨And.right, fun hq => ⟨(quot_sign hq).2.2.2 h3 hbb.le, hq⟩⟩
      · have hnum : numFunc R b = 2 := by simp [numFunc, hcl, hba, hbb]
        rw [hnum] at h
        simp only [kdivTable, rightRay, leftRay, fdiv, if_neg hba, if_neg hbb, twoRays] at h
        injection h with h
        subst h
        have hba : b.a < 0 := lt_of_le_of_ne h0.1 hba
        have hbb : 0 < b.b := lt_of_le_of_ne h0.2 (Ne.symm hbb)
        refine .two _ _ (fun t => ?_) (fun t => ?_) hnum
        · rw [XIv.mem_left, hnr, ← quot_pos_neg ha h3 hba h0.2]
        · rw [XIv.mem_right, hnr, ← quot_pos_pos ha h3 h0.1 hbb]

/-- C53, full statement for a given arithmetic: for every ordered dividend and every divisor containing zero, with
the number of the case that `algo` computes, the division returns and the intervals contain every quotient. -/
def C53_statement (R : Rnd K) : Prop :=
  ∀ a b : Iv K, a.a ≤ a.b → b.a ≤ b.b → (0 : K) ∈ b →
    ∃ ps, kdiv R a b (numFunc R b) = .ok ps ∧ ∀ t, Quot a b t → ∃ p ∈ ps, XIv.Mem p t

/-- C53, partial: with exactly computed quotients the intervals are exactly the set of quotients, and the only
failure is `ZeroDivisionError` for the divisor `[0, 0]` and a dividend without zero.  Missing: rounded quotients and
that divisor, for which the claim is false (`C53_rounding_false`, `C53_zero_false`). -/
theorem C53_kdiv_partial {R : Rnd K} (hnr : ∀ x, R.nr x = x) (a b : Iv K) (ha : a.a ≤ a.b) (hb : b.a ≤ b.b)
    (h0 : (0 : K) ∈ b) :
    (kdiv R a b (numFunc R b) = .error .zeroDivisionError ∧ b.a = 0 ∧ b.b = 0 ∧ ¬ (0 : K) ∈ a) ∨
    ∃ ps, kdiv R a b (numFunc R b) = .ok ps ∧ (∀ t, (∃ p ∈ ps, XIv.Mem p t) ↔ Quot a b t) ∧
      (ps.length = 1 ∨ ps.length = 2) := by
  by_cases hz : b.a = 0 ∧ b.b = 0 ∧ ¬ (0 : K) ∈ a
  · refine Or.inl ⟨?_, hz⟩
    obtain ⟨h1, h2, h3⟩ := hz
    have hc : a.containsNum 0 = false := by simpa using fun h => h3 (containsNum_iff.1 h)
    unfold kdiv
    rw [if_neg (by simp [hc])]
    have hn : numFunc R b = 0 := by simp [numFunc, h1]
    rw [hn]
    rcases lt_or_ge a.b 0 with h4 | h4
    · rw [if_pos h4]
      simp [kdivTable, leftRay, fdiv, h2, Except.map]
    · have h5 : 0 < a.a := by
        by_contra hcon
        exact h3 ⟨not_lt.1 hcon, h4⟩
      rw [if_neg (not_lt.2 h4), if_pos h5]
      simp [kdivTable, rightRay, fdiv, h2, Except.map]
  · refine Or.inr ?_
    have hok : ∃ ps, kdiv R a b (numFunc R b) = .ok ps := by
      unfold kdiv
      by_cases h1 : a.containsNum 0 = true
      · exact ⟨_, if_pos h1⟩
      · have h3 : ¬ (0 : K) ∈ a := fun h => h1 (containsNum_iff.2 h)
        have hcl : classicRow R b = false := by
          rw [Bool.eq_false_iff]
          intro hc
          rw [classicRow_iff hnr] at hc
          exact absurd hc (not_lt.2 (mul_nonpos_of_nonpos_of_nonneg h0.1 h0.2))
        rw [if_neg h1]
        rcases lt_or_ge a.b 0 with h4 | h4
        · rw [if_pos h4]
          by_cases hba : b.a = 0
          · have hbb : b.b ≠ 0 := fun hbb => hz ⟨hba, hbb, h3⟩
            simp [numFunc, hcl, hba, kdivTable, leftRay, fdiv, hbb, Except.map]
          · by_cases hbb : b.b = 0 <;>
              simp [numFunc, hcl, hba, hbb, kdivTable, leftRay, rightRay, twoRays, fdiv, Except.map]
        · have h5 : 0 < a.a := by
            by_contra hcon
            exact h3 ⟨not_lt.1 hcon, h4⟩
          rw [if_neg (not_lt.2 h4), if_pos h5]
          by_cases hba : b.a = 0
          · have hbb : b.b ≠ 0 := fun hbb => hz ⟨hba, hbb, h3⟩
            simp [numFunc, hcl, hba, kdivTable, rightRay, fdiv, hbb, Except.map]
          · by_cases hbb : b.b = 0 <;>
              simp [numFunc, hcl, hba, hbb, kdivTable, leftRay, rightRay, twoRays, fdiv, Except.map]
    obtain ⟨ps, hps⟩ := hok
    refine ⟨ps, hps, ?_, ?_⟩
    · cases kdiv_spec hnr a b ha hb h0 ps hps with
      | one p h => intro t; simp [h]
      | two p q hp hq _ =>
          intro t
          simp only [List.mem_cons, List.not_mem_nil, or_false, exists_eq_or_imp, exists_eq_left, hp, hq]
          constructor
          · rintro (h | h) <;> exact h.2
          · intro h
            have hna : ¬ (0 : K) ∈ a := by
              intro hc
              unfold kdiv at hps
              rw [if_pos (containsNum_iff.2 hc)] at hps
              cases hps
            rcases lt_or_gt_of_ne (quot_ne_zero hna h) with h' | h'
            · exact Or.inl ⟨h', h⟩
            · exact Or.inr ⟨h', h⟩
    · cases kdiv_spec hnr a b ha hb h0 ps hps with
      | one p h => exact Or.inl rfl
      | two p q hp hq _ => exact Or.inr rfl

/-- C53: false for the divisor `[0, 0]`, which every matrix with a zero element gives: `ZeroDivisionError`. -/
theorem C53_zero_false (R : Rnd K) : ¬ C53_statement R := by
  intro h
  obtain ⟨ps, hps, -⟩ := h ⟨.classical, 1, 2⟩ ⟨.classical, 0, 0⟩ (by norm_num) le_rfl ⟨le_rfl, le_rfl⟩
  have : kdiv R ⟨.classical, 1, 2⟩ ⟨.classical, 0, 0⟩ (numFunc R ⟨.classical, 0, 0⟩) = .error .zeroDivisionError := by
    have hn : numFunc R (⟨.classical, 0, 0⟩ : Iv K) = 0 := by simp [numFunc]
    rw [hn]
    have h1 : ¬ (1 : K) ≤ 0 := not_le.2 one_pos
    have h2 : ¬ (2 : K) < 0 := not_lt.2 zero_le_two
    simp [kdiv, Iv.containsNum, kdivTable, rightRay, fdiv, Except.map, h1, h2]
  rw [this] at hps
  cases hps

/-- C53: false with binary64 quotients also for other divisors: `1 / 10` is rounded up to nearest, and the exact
quotient of `[1, 1]` by `[0, 10]` is lost. -/
theorem C53_rounding_false : ∃ ps, kdiv (Rnd.b64 : Rnd ℚ) ⟨.classical, 1, 1⟩ ⟨.classical, 0, 10⟩
      (numFunc (Rnd.b64 : Rnd ℚ) ⟨.classical, 0, 10⟩) = .ok ps ∧
    Quot (⟨.classical, 1, 1⟩ : Iv ℚ) ⟨.classical, 0, 10⟩ (1 / 10) ∧ ∀ p ∈ ps, ¬ XIv.Mem p (1 / 10) := by
  have h : kdiv (Rnd.b64 : Rnd ℚ) ⟨.classical, 1, 1⟩ ⟨.classical, 0, 10⟩ (numFunc (Rnd.b64 : Rnd ℚ) ⟨.classical, 0, 10⟩) =
      .ok [⟨some (3602879701896397 / 36028797018963968), none⟩] := by decide +kernel
  refine ⟨_, h, ⟨1, ⟨le_rfl, le_rfl⟩, 10, ⟨by norm_num, le_rfl⟩, by norm_num⟩, fun p hp => ?_⟩
  rw [List.mem_singleton.1 hp, XIv.mem_right]
  norm_num

/-- An interval with its finite ends rounded to nearest. -/
def XIv.near (R : Rnd K) (p : XIv K) : XIv K := ⟨p.lo.map R.nr, p.hi.map R.nr⟩

/-- C53 for every rounding: the division chooses the same case as without rounding, raises the same exceptions, and returns the exact
intervals (`C53_kdiv_partial`) with their finite ends rounded to nearest. -/
theorem C53_rounded_ends (R : Rnd K) (a b : Iv K) (h0 : (0 : K) ∈ b) :
    kdiv R a b (numFunc R b) = (kdiv Rnd.exact a b (numFunc Rnd.exact b)).map (List.map (XIv.near R)) := by
  have hc : ∀ R : Rnd K, classicRow R b = false := by
    intro R
    have hp : b.a * b.b ≤ 0 := mul_nonpos_of_nonpos_of_nonneg h0.1 h0.2
    have : R.nr (b.a * b.b) ≤ 0 := (R.nr_le_up _).trans ((R.up_mono hp).trans R.up_zero.le)
    simp [classicRow, this]
  have hn : numFunc R b = numFunc Rnd.exact b := by unfold numFunc; rw [hc, hc]
  have key : ∀ k, kdivTable R a b k = (kdivTable Rnd.exact a b k).map (List.map (XIv.near R)) := by
    intro k
    have hl : ∀ p q : K, leftRay R p q = (leftRay Rnd.exact p q).map (XIv.near R) := by
      intro p q
      unfold leftRay fdiv
      split_ifs <;> rfl
    have hr : ∀ p q : K, rightRay R p q = (rightRay Rnd.exact p q).map (XIv.near R) := by
      intro p q
      unfold rightRay fdiv
      split_ifs <;> rfl
    have h1 : ∀ r : Except Err (XIv K), (r.map (XIv.near R)).map (fun q => [q]) = (r.map fun q => [q]).map (List.map (XIv.near R)) := by
      intro r
      cases r <;> rfl
    have h2 : ∀ r r' : Except Err (XIv K), twoRays (r.map (XIv.near R)) (r'.map (XIv.near R)) = (twoRays r r').map (List.map (XIv.near R)) := by
      intro r r'
      cases r <;> cases r' <;> rfl
    unfold kdivTable
    split <;> first | rfl | simp only [hl, hr, h1, h2]
  unfold kdiv
  rw [hn]
  split_ifs
  · rfl
  · exact key _
  · exact key _
  · rfl

/-- Hence, when rounding to nearest changes a number by at most `ε` times its magnitude plus `η`, every quotient lies in one of the
intervals after their finite ends have been moved by that much. -/
theorem C53_slack (R : Rnd K) (ε η : K) (hε : ∀ x, |R.nr x - x| ≤ ε * |x| + η) (a b : Iv K) (ha : a.a ≤ a.b) (hb : b.a ≤ b.b)
    (h0 : (0 : K) ∈ b) (hz : ¬ (b.a = 0 ∧ b.b = 0)) :
    ∃ ps, kdiv R a b (numFunc R b) = .ok ps ∧ ∀ t, Quot a b t → ∃ p ∈ ps, ∃ q : XIv K, XIv.Mem q t ∧
      (∀ l, p.lo = some l → ∃ l', q.lo = some l' ∧ |l - l'| ≤ ε * |l'| + η) ∧
      (∀ h, p.hi = some h → ∃ h', q.hi = some h' ∧ |h - h'| ≤ ε * |h'| + η) := by
  rcases C53_kdiv_partial (R := Rnd.exact) (fun _ => rfl) a b ha hb h0 with h | ⟨ps, hps, hq, -⟩
  · exact absurd ⟨h.2.1, h.2.2.1⟩ hz
  · refine ⟨ps.map (XIv.near R), by rw [C53_rounded_ends R a b h0, hps]; rfl, fun t ht => ?_⟩
    obtain ⟨q, hq1, hq2⟩ := (hq t).2 ht
    refine ⟨_, List.mem_map_of_mem hq1, q, hq2, fun l hl => ?_, fun h hh => ?_⟩
    · unfold XIv.near at hl
      cases hlo : q.lo with
      | none => simp [hlo] at hl
      | some l' =>
        simp only [hlo, Option.map_some, Option.some.injEq] at hl
        exact ⟨l', rfl, hl ▸ hε l'⟩
    · unfold XIv.near at hh
      cases hhi : q.hi with
      | none => simp [hhi] at hh
      | some h' =>
        simp only [hhi, Option.map_some, Option.some.injEq] at hh
        exact ⟨h', rfl, hh ▸ hε h'⟩

/-- The hypothesis of `C53_slack` holds for binary64, and `[1, 1] / [0, 10]` is an instance. -/
example : (∀ x : ℚ, |(Rnd.b64 : Rnd ℚ).nr x - x| ≤ 2 ^ (-53 : ℤ) * |x| + 2 ^ (-1075 : ℤ)) ∧
    (0 : ℚ) ∈ (⟨.classical, 0, 10⟩ : Iv ℚ) ∧ Quot (⟨.classical, 1, 1⟩ : Iv ℚ) ⟨.classical, 0, 10⟩ (1 / 10) :=
  ⟨nearTo_err, ⟨le_rfl, by norm_num⟩, 1, ⟨le_rfl, le_rfl⟩, 10, ⟨by norm_num, le_rfl⟩, by norm_num⟩

/-- The quotient of `[1, 2]` by `[-1, 2]` is the two rays `(-inf, -1]` and `[1/2, inf)`. -/
example : kdiv (Rnd.exact : Rnd ℚ) ⟨.classical, 1, 2⟩ ⟨.classical, -1, 2⟩
    (numFunc (Rnd.exact : Rnd ℚ) ⟨.classical, -1, 2⟩) =
    .ok [⟨none, some (-1)⟩, ⟨some (1 / 2), none⟩] := by decide +kernel

end IntvalPy
