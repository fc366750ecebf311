import Verif.ModelPrint
import Verif.PropsUtils

/-!
# What is read off a printed interval (C119)
-/

set_option autoImplicit false
set_option linter.unusedSectionVars false

namespace IntvalPy
open Spec

theorem nearInt_bounds (s : ℚ) : ⌊s⌋ ≤ nearInt s ∧ nearInt s ≤ ⌊s⌋ + 1 := by
  unfold nearInt
  dsimp only
  split_ifs <;> omega

theorem nearInt_mono {s t : ℚ} (h : s ≤ t) : nearInt s ≤ nearInt t := by
  have hf := Int.floor_le_floor h
  rcases hf.lt_or_eq with hlt | heq
  · have := (nearInt_bounds s).2
    have := (nearInt_bounds t).1
    omega
  · unfold nearInt
    dsimp only
    rw [← heq]
    split_ifs <;> first | omega | (exfalso; linarith)

theorem nearInt_intCast (z : ℤ) : nearInt (z : ℚ) = z := by
  unfold nearInt
  dsimp only
  rw [Int.floor_intCast, sub_self, if_pos (by norm_num)]

theorem nearInt_neg (s : ℚ) : nearInt (-s) = -nearInt s := by
  by_cases hz : ((⌊s⌋ : ℤ) : ℚ) = s
  · rw [← hz, nearInt_intCast, ← Int.cast_neg, nearInt_intCast]
  · have h1 := Int.floor_le s
    have h2 := Int.lt_floor_add_one s
    have h3 := lt_of_le_of_ne h1 hz
    have hf : ⌊-s⌋ = -⌊s⌋ - 1 := by
      rw [Int.floor_eq_iff]
      push_cast
      constructor <;> linarith
    unfold nearInt
    dsimp only
    rw [hf]
    push_cast
    split_ifs <;> first | omega | (exfalso; linarith)

theorem lastDigit_neg (x : ℚ) : lastDigit (-x) = lastDigit x := by unfold lastDigit; rw [abs_neg]

theorem ten_pos (k : ℤ) : (0 : ℚ) < 10 ^ k := zpow_pos (by norm_num) k

theorem shown_zero : shown 0 = 0 := by
  unfold shown
  rw [zero_div, show (0 : ℚ) = ((0 : ℤ) : ℚ) by norm_num, nearInt_intCast]
  norm_num

theorem lastDigit_bounds {x : ℚ} (hx : x ≠ 0) :
    10 ^ (5 : ℤ) * 10 ^ lastDigit x ≤ |x| ∧ |x| < 10 ^ (6 : ℤ) * 10 ^ lastDigit x := by
  have h1 := Int.zpow_log_le_self (b := 10) (by norm_num) (abs_pos.2 hx)
  have h2 := Int.lt_zpow_succ_log_self (b := 10) (by norm_num) |x|
  rw [← zpow_add₀ (by norm_num), ← zpow_add₀ (by norm_num)]
  unfold lastDigit
  rw [show (5 : ℤ) + (Int.log 10 |x| - 5) = Int.log 10 |x| by ring,
    show (6 : ℤ) + (Int.log 10 |x| - 5) = Int.log 10 |x| + 1 by ring]
  exact ⟨by exact_mod_cast h1, by exact_mod_cast h2⟩

theorem lastDigit_eq {x : ℚ} {k : ℤ} (h1 : 10 ^ (5 : ℤ) * 10 ^ k ≤ |x|) (h2 : |x| < 10 ^ (6 : ℤ) * 10 ^ k) :
    lastDigit x = k := by
  have hx : 0 < |x| := lt_of_lt_of_le (mul_pos (ten_pos 5) (ten_pos k)) h1
  rw [← zpow_add₀ (by norm_num)] at h1 h2
  have a := (Int.zpow_le_iff_le_log (b := 10) (by norm_num) hx).1 (by exact_mod_cast h1)
  have b := (Int.lt_zpow_iff_log_lt (b := 10) (by norm_num) hx).1 (by exact_mod_cast h2)
  unfold lastDigit
  omega

/-- C119, the error: the number shown differs from the endpoint by at most five millionths of it. -/
theorem C119_error (x : ℚ) : |shown x - x| ≤ 5 / 10 ^ 6 * |x| := by
  by_cases hx : x = 0
  · subst hx; rw [shown_zero]; norm_num
  have hu := ten_pos (lastDigit x)
  have hb := (lastDigit_bounds hx).1
  have e : shown x - x = ((nearInt (x / 10 ^ lastDigit x) : ℚ) - x / 10 ^ lastDigit x) * 10 ^ lastDigit x := by
    unfold shown
    field_simp
  rw [e, abs_mul, abs_of_pos hu]
  have := mul_le_mul_of_nonneg_right (nearInt_err (x / 10 ^ lastDigit x)) hu.le
  norm_num at hb ⊢
  norm_num at this
  linarith

/-- C119, negation: the interval `-X` shows the mirrored numbers. -/
theorem C119_neg (x : ℚ) : shown (-x) = -shown x := by
  unfold shown
  rw [lastDigit_neg, neg_div, nearInt_neg]
  push_cast
  ring

theorem shown_pos_bounds {x : ℚ} (hx : 0 < x) :
    10 ^ (5 : ℤ) * 10 ^ lastDigit x ≤ shown x ∧ shown x ≤ 10 ^ (6 : ℤ) * 10 ^ lastDigit x := by
  have hu := ten_pos (lastDigit x)
  obtain ⟨h1, h2⟩ := lastDigit_bounds hx.ne'
  rw [abs_of_pos hx] at h1 h2
  unfold shown
  constructor
  · refine mul_le_mul_of_nonneg_right ?_ hu.le
    have : nearInt ((100000 : ℤ) : ℚ) ≤ nearInt (x / 10 ^ lastDigit x) := by
      apply nearInt_mono
      rw [le_div_iff₀ hu]
      norm_num at h1 ⊢
      exact h1
    rw [nearInt_intCast] at this
    have h : ((100000 : ℤ) : ℚ) ≤ (nearInt (x / 10 ^ lastDigit x) : ℚ) := by exact_mod_cast this
    norm_num at h ⊢
    exact h
  · refine mul_le_mul_of_nonneg_right ?_ hu.le
    have : nearInt (x / 10 ^ lastDigit x) ≤ nearInt ((1000000 : ℤ) : ℚ) := by
      apply nearInt_mono
      rw [div_le_iff₀ hu]
      norm_num at h2 ⊢
      exact h2.le
    rw [nearInt_intCast] at this
    have h : (nearInt (x / 10 ^ lastDigit x) : ℚ) ≤ ((1000000 : ℤ) : ℚ) := by exact_mod_cast this
    norm_num at h ⊢
    exact h

theorem shown_pos {x : ℚ} (hx : 0 < x) : 0 < shown x :=
  lt_of_lt_of_le (mul_pos (ten_pos 5) (ten_pos _)) (shown_pos_bounds hx).1

theorem shown_mono_pos {x y : ℚ} (hx : 0 < x) (h : x ≤ y) : shown x ≤ shown y := by
  have hy := hx.trans_le h
  have hl : lastDigit x ≤ lastDigit y := by
    unfold lastDigit
    rw [abs_of_pos hx, abs_of_pos hy]
    have := Int.log_mono_right (b := 10) hx h
    omega
  rcases hl.lt_or_eq with hlt | heq
  · refine (shown_pos_bounds hx).2.trans (le_trans ?_ (shown_pos_bounds hy).1)
    rw [← zpow_add₀ (by norm_num), ← zpow_add₀ (by norm_num)]
    exact zpow_le_zpow_right₀ (by norm_num) (by omega)
  · unfold shown
    rw [← heq]
    have hu := ten_pos (lastDigit x)
    refine mul_le_mul_of_nonneg_right ?_ hu.le
    exact_mod_cast nearInt_mono (div_le_div_of_nonneg_right h hu.le)

/-- C119, order: the numbers shown are ordered like the endpoints, so a proper interval is shown as a proper interval. -/
theorem C119_order {x y : ℚ} (h : x ≤ y) : shown x ≤ shown y := by
  rcases lt_trichotomy x 0 with hx | rfl | hx
  · rcases lt_trichotomy y 0 with hy | rfl | hy
    · have := shown_mono_pos (neg_pos.2 hy) (neg_le_neg h)
      rw [C119_neg, C119_neg] at this
      linarith
    · have := shown_pos (neg_pos.2 hx)
      rw [C119_neg] at this
      rw [shown_zero]
      linarith
    · have := shown_pos (neg_pos.2 hx)
      rw [C119_neg] at this
      have := shown_pos hy
      linarith
  · rcases h.lt_or_eq with hy | rfl
    · rw [shown_zero]; exact (shown_pos hy).le
    · exact le_refl _
  · exact shown_mono_pos hx h

/-- C119, exact numbers: a decimal number with at most six significant digits is shown exactly. -/
theorem C119_exact (z k : ℤ) (hz : |z| < 10 ^ 6) : shown ((z : ℚ) * 10 ^ k) = z * 10 ^ k := by
  by_cases h0 : z = 0
  · subst h0; norm_num [shown_zero]
  set x : ℚ := (z : ℚ) * 10 ^ k with hxdef
  have hk := ten_pos k
  have hx : x ≠ 0 := mul_ne_zero (by exact_mod_cast h0) hk.ne'
  have hz' : |(z : ℚ)| < 10 ^ 6 := by exact_mod_cast hz
  obtain ⟨h1, -⟩ := lastDigit_bounds hx
  have hl : lastDigit x ≤ k := by
    have hax : |x| < 10 ^ (6 : ℤ) * 10 ^ k := by
      rw [hxdef, abs_mul, abs_of_pos hk]
      have := mul_lt_mul_of_pos_right hz' hk
      norm_num at this ⊢
      exact this
    have := h1.trans_lt hax
    rw [← zpow_add₀ (by norm_num), ← zpow_add₀ (by norm_num), zpow_lt_zpow_iff_right₀ (by norm_num)] at this
    omega
  have hdiv : x / 10 ^ lastDigit x = ((z * 10 ^ (k - lastDigit x).toNat : ℤ) : ℚ) := by
    rw [hxdef, ← hxdef, mul_div_assoc, ← zpow_sub₀ (by norm_num)]
    push_cast
    congr 1
    rw [← zpow_natCast, Int.toNat_of_nonneg (by omega)]
  unfold shown
  rw [hdiv, nearInt_intCast, ← hdiv, div_mul_cancel₀ _ (ten_pos _).ne']

/-- The hypotheses hold: `0.125` has three significant digits. -/
example : |(125 : ℤ)| < 10 ^ 6 ∧ ((125 : ℤ) : ℚ) * 10 ^ (-3 : ℤ) = 1 / 8 ∧ shown (1 / 8) = 1 / 8 := by
  have e : ((125 : ℤ) : ℚ) * 10 ^ (-3 : ℤ) = 1 / 8 := by norm_num
  exact ⟨by norm_num, e, by rw [← e]; exact C119_exact 125 (-3) (by norm_num)⟩

/-- C119 as stated: the interval read off the printed text contains the interval. -/
def C119_statement : Prop :=
  ∀ (X : FIv) (a b p q : ℚ), X.a.val = .fin a → X.b.val = .fin b → a ≤ b → X.repr = .ok (.fin p, .fin q) →
    p ≤ a ∧ b ≤ q

theorem shown_1234567 : shown 1234567 = 1234570 := by
  have e : lastDigit 1234567 = 1 := by
    refine lastDigit_eq ?_ ?_ <;> norm_num [abs_of_pos]
  unfold shown
  rw [e]
  have : nearInt ((1234567 : ℚ) / 10 ^ (1 : ℤ)) = 123457 := by decide +kernel
  rw [this]
  norm_num

theorem shown_1000001 : shown 1000001 = 1000000 := by
  have e : lastDigit 1000001 = 1 := by
    refine lastDigit_eq ?_ ?_ <;> norm_num [abs_of_pos]
  unfold shown
  rw [e]
  have : nearInt ((1000001 : ℚ) / 10 ^ (1 : ℤ)) = 100000 := by decide +kernel
  rw [this]
  norm_num

/-- C119 is false: the interval `[1234567, 1234567]` is printed as `[1.23457e+06, 1.23457e+06]`, which does not contain
it, and the disjoint intervals `[1000000, 1000000]` and `[1000001, 1000001]` are printed alike. -/
theorem C119_print_false : ¬ C119_statement ∧
    (⟨.classical, .dbl (.fin 1234567), .dbl (.fin 1234567)⟩ : FIv).repr = .ok (.fin 1234570, .fin 1234570) ∧
    (⟨.classical, .dbl (.fin 1000001), .dbl (.fin 1000001)⟩ : FIv).repr =
      (⟨.classical, .dbl (.fin 1000000), .dbl (.fin 1000000)⟩ : FIv).repr := by
  have h1 : (⟨.classical, .dbl (.fin 1234567), .dbl (.fin 1234567)⟩ : FIv).repr = .ok (.fin 1234570, .fin 1234570) := by
    simp only [FIv.repr, showNum, Num.toDbl, shown_1234567]
  have h2 : shown 1000000 = 1000000 := by
    have := C119_exact 1 6 (by norm_num)
    norm_num at this
    exact this
  refine ⟨fun h => ?_, h1, by simp only [FIv.repr, showNum, Num.toDbl, shown_1000001, h2]⟩
  have := (h _ 1234567 1234567 _ _ rfl rfl (le_refl _) h1).1
  norm_num at this

/-- C119 (partial): for finite floats the text is always produced, the numbers shown are ordered like the endpoints, and
they enclose the interval after each is moved outwards by five millionths of the endpoint; endpoints with at most six
significant digits are shown exactly.  Missing: containment by the numbers as shown, which is false. -/
theorem C119_print_partial (c : Cls) (a b : ℚ) (h : a ≤ b) :
    ∃ p q, (⟨c, .dbl (.fin a), .dbl (.fin b)⟩ : FIv).repr = .ok (.fin p, .fin q) ∧ p ≤ q ∧
      p - 5 / 10 ^ 6 * |a| ≤ a ∧ b ≤ q + 5 / 10 ^ 6 * |b| ∧
      (∀ z k : ℤ, |z| < 10 ^ 6 → a = z * 10 ^ k → p = a) ∧ (∀ z k : ℤ, |z| < 10 ^ 6 → b = z * 10 ^ k → q = b) := by
  refine ⟨shown a, shown b, rfl, C119_order h, ?_, ?_, ?_, ?_⟩
  · have := abs_le.1 (C119_error a); linarith
  · have := abs_le.1 (C119_error b); linarith
  · rintro z k hz rfl; exact C119_exact z k hz
  · rintro z k hz rfl; exact C119_exact z k hz

/-- C119, when printing fails: only for an integer endpoint that does not fit into a float. -/
theorem C119_raises (X : FIv) (e : Err) :
    X.repr = .error e ↔ e = .overflowError ∧
      ∃ z : ℤ, (X.a = .int z ∨ X.b = .int z) ∧ ∀ q, round .nearest z ≠ .fin q := by
  have key : ∀ x : Num, (∃ d, showNum x = .ok d) ∧ (∀ z : ℤ, x = .int z → ∃ q, round .nearest z = .fin q) ∨
      showNum x = .error .overflowError ∧ ∃ z : ℤ, x = .int z ∧ ∀ q, round .nearest z ≠ .fin q := by
    intro x
    cases x with
    | dbl d =>
        left
        refine ⟨?_, fun z hz => by cases hz⟩
        cases d <;> exact ⟨_, rfl⟩
    | int z =>
        cases hr : round .nearest z with
        | fin q =>
            left
            refine ⟨⟨.fin (shown q), ?_⟩, fun z' hz => ⟨q, by cases hz; exact hr⟩⟩
            simp only [showNum, Num.toDbl, hr]
        | pinf => right; exact ⟨by simp only [showNum, Num.toDbl, hr], z, rfl, fun q hq => by rw [hr] at hq; cases hq⟩
        | ninf => right; exact ⟨by simp only [showNum, Num.toDbl, hr], z, rfl, fun q hq => by rw [hr] at hq; cases hq⟩
        | nan => right; exact ⟨by simp only [showNum, Num.toDbl, hr], z, rfl, fun q hq => by rw [hr] at hq; cases hq⟩
  unfold FIv.repr
  rcases key X.a with ⟨⟨d, hd⟩, ha⟩ | ⟨hd, z, hz, ha⟩
  · rcases key X.b with ⟨⟨d', hd'⟩, hb⟩ | ⟨hd', z, hz, hb⟩
    · simp only [hd, hd', reduceCtorEq, false_iff]
      rintro ⟨-, z, hz | hz, hq⟩
      · obtain ⟨q, h⟩ := ha z hz; exact hq q h
      · obtain ⟨q, h⟩ := hb z hz; exact hq q h
    · simp only [hd, hd', Except.error.injEq]
      exact ⟨fun h => ⟨h.symm, z, Or.inr hz, hb⟩, fun h => h.1.symm⟩
  · simp only [hd, Except.error.injEq]
    exact ⟨fun h => ⟨h.symm, z, Or.inl hz, ha⟩, fun h => h.1.symm⟩

/-- An integer endpoint of 400 digits cannot be printed. -/
example : (⟨.classical, .int 0, .int (10 ^ 400)⟩ : FIv).repr = .error .overflowError := by
  refine (C119_raises _ _).2 ⟨rfl, 10 ^ 400, Or.inr rfl, ?_⟩
  intro q hq
  have hr : (maxFin : ℚ) < nearTo ((10 ^ 400 : ℤ) : ℚ) := by
    refine lt_of_lt_of_le ?_ (floorTo_le_nearTo _)
    refine lt_of_lt_of_le ?_ (floorTo_mono (show (2 : ℚ) ^ 1024 ≤ ((10 ^ 400 : ℤ) : ℚ) by
      have h : (2 : ℕ) ^ 1024 ≤ 10 ^ 400 := by decide +kernel
      exact_mod_cast h))
    rw [floorTo_of_isF (isF_two_pow 1024)]
    unfold maxFin
    rw [show (2 : ℚ) ^ 1024 = 2 ^ 53 * 2 ^ 971 by rw [← pow_add]]
    exact mul_lt_mul_of_pos_right (by linarith) (by positivity)
  unfold round at hq
  dsimp only at hq
  rw [if_pos hr] at hq
  cases hq

end IntvalPy
