import Verif.PropsUnbounded
import Verif.PropsPower
import Mathlib.Algebra.Order.Ring.Abs

/-!
# C136: natural powers of classical intervals with finite or infinite ends
-/

set_option autoImplicit false
set_option linter.unusedSectionVars false

namespace IntvalPy
open FIv

/-! ## Specification of the power of one number -/

/-- What is assumed of `x ** n` for one number: rounded downwards or upwards in the mode in force when `x` is finite (integers are
exact), and the IEEE values at the infinities (exponents at least one).  It may raise, for instance on overflow. -/
structure PowIEEE (pw : Mode → Num → ℕ → Except Err Num) : Prop where
  down : ∀ x n v p, pw .down x n = .ok v → x.val = .fin p → v.val.Lower ((p : ℝ) ^ n)
  up : ∀ x n v p, pw .up x n = .ok v → x.val = .fin p → v.val.Upper ((p : ℝ) ^ n)
  pinf : ∀ m x n v, 0 < n → pw m x n = .ok v → x.val = .pinf → v.val = .pinf
  ninf : ∀ m x n v, 0 < n → pw m x n = .ok v → x.val = .ninf → v.val = if n % 2 = 0 then .pinf else .ninf

/-! ## Bounds from one end -/

theorem pow_mono_odd {n : ℕ} (ho : n % 2 = 1) {x y : ℝ} (h : x ≤ y) : x ^ n ≤ y ^ n :=
  (Odd.strictMono_pow (Nat.odd_iff.2 ho)).monotone h

theorem pow_even_abs {n : ℕ} (he : n % 2 = 0) (x : ℝ) : x ^ n = |x| ^ n := (Even.pow_abs (Nat.even_iff.2 he) x).symm

theorem pow_even_le {n : ℕ} (he : n % 2 = 0) {x y : ℝ} (h : |x| ≤ |y|) : x ^ n ≤ y ^ n := by
  rw [pow_even_abs he x, pow_even_abs he y]
  exact pow_le_pow_left₀ (abs_nonneg x) h n

theorem pow_even_nonneg {n : ℕ} (he : n % 2 = 0) (x : ℝ) : 0 ≤ x ^ n := (Nat.even_iff.2 he).pow_nonneg x

theorem upper_trans {a : Dbl} {x y : ℝ} (h : a.Upper y) (hxy : x ≤ y) : a.Upper x := by
  cases a with
  | fin q => exact le_trans hxy h
  | pinf => trivial
  | ninf => exact h
  | nan => exact h

theorem pow_ok {pw : Mode → Num → ℕ → Except Err Num} (hp : PowIEEE pw) {n : ℕ} {x v : Num} {m : Mode} (hn : 0 < n) (hm : m = .down ∨ m = .up)
    (h : pw m x n = .ok v) (hx : x.val.Ok) : v.val.Ok := by
  cases e : x.val with
  | fin p =>
    rcases hm with rfl | rfl
    · exact (hp.down x n v p h e).ok
    · exact (hp.up x n v p h e).ok
  | pinf => rw [hp.pinf m x n v hn h e]; simp [Dbl.Ok]
  | ninf => rw [hp.ninf m x n v hn h e]; split_ifs <;> simp [Dbl.Ok]
  | nan => exact absurd e hx

/-- The computation of the powers, when no power raises. -/
theorem powC_run {pw : Mode → Num → ℕ → Except Err Num} {X Z : FIv} {n : ℕ} {s : Mode}
    (h : (FIv.powC pw X n s).1 = .ok Z) :
    ∃ v1 v2 w1 w2, pw .down X.a n = .ok v1 ∧ pw .down X.b n = .ok v2 ∧ pw .up X.a n = .ok w1 ∧ pw .up X.b n = .ok w2 ∧
      Z = if n % 2 = 0 ∧ X.containsNum (.int 0) then ⟨.classical, .dbl (.fin 0), w1.max2 w2⟩
        else ⟨.classical, v1.min2 v2, w1.max2 w2⟩ := by
  unfold FIv.powC at h
  cases h1 : pw .down X.a n with
  | error e => simp only [run_bind, run_with, M.op, h1] at h; cases h
  | ok v1 =>
    cases h2 : pw .down X.b n with
    | error e => simp only [run_bind, run_with, M.op, h1, h2] at h; cases h
    | ok v2 =>
      cases h3 : pw .up X.a n with
      | error e => simp only [run_bind, run_with, M.op, h1, h2, h3] at h; cases h
      | ok w1 =>
        cases h4 : pw .up X.b n with
        | error e => simp only [run_bind, run_with, M.op, h1, h2, h3, h4] at h; cases h
        | ok w2 =>
          refine ⟨v1, v2, w1, w2, rfl, rfl, rfl, rfl, ?_⟩
          simp only [run_bind, run_with, M.op, h1, h2, h3, h4] at h
          split_ifs at h ⊢ <;> cases h <;> rfl

/-- C136: a natural power of a classical interval with finite or infinite ends, when it is returned, contains the powers of all
members. -/
theorem C136_power_encloses (pw : Mode → Num → ℕ → Except Err Num) (hp : PowIEEE pw) (X Z : FIv) (n : ℕ) (hn : 0 < n) (s : Mode)
    (h : (FIv.powC pw X n s).1 = .ok Z) (x : ℝ) (hx : X.Mem x) : Z.Mem (x ^ n) := by
  obtain ⟨v1, v2, w1, w2, h1, h2, h3, h4, rfl⟩ := powC_run h
  have oa := hx.1.ok
  have ob := hx.2.ok
  obtain ⟨-, l1, l2⟩ := min2_spec (pow_ok hp hn (Or.inl rfl) h1 oa) (pow_ok hp hn (Or.inl rfl) h2 ob)
  obtain ⟨-, u1, u2⟩ := max2_spec (pow_ok hp hn (Or.inr rfl) h3 oa) (pow_ok hp hn (Or.inr rfl) h4 ob)
  -- the upper end
  have hup : (w1.max2 w2).val.Upper (x ^ n) := by
    rcases Nat.mod_two_eq_zero_or_one n with he | ho
    · rcases le_total 0 x with x0 | x0
      · refine Dbl.upper_of_le u2 ?_
        cases e : X.b.val with
        | fin b =>
          have hb : x ≤ (b : ℝ) := by have := hx.2; rw [e] at this; exact this
          exact upper_trans (hp.up _ _ _ b h4 e) (pow_le_pow_left₀ x0 hb n)
        | pinf => rw [hp.pinf _ _ _ _ hn h4 e]; trivial
        | ninf => have := hx.2; rw [e] at this; exact this.elim
        | nan => exact absurd e ob
      · refine Dbl.upper_of_le u1 ?_
        cases e : X.a.val with
        | fin a =>
          have ha : (a : ℝ) ≤ x := by have := hx.1; rw [e] at this; exact this
          exact upper_trans (hp.up _ _ _ a h3 e) (pow_even_le he (by
            rw [abs_of_nonpos x0, abs_of_nonpos (ha.trans x0)]; linarith))
        | ninf => rw [hp.ninf _ _ _ _ hn h3 e, if_pos he]; trivial
        | pinf => have := hx.1; rw [e] at this; exact this.elim
        | nan => exact absurd e oa
    · refine Dbl.upper_of_le u2 ?_
      cases e : X.b.val with
      | fin b =>
        have hb : x ≤ (b : ℝ) := by have := hx.2; rw [e] at this; exact this
        exact upper_trans (hp.up _ _ _ b h4 e) (pow_mono_odd ho hb)
      | pinf => rw [hp.pinf _ _ _ _ hn h4 e]; trivial
      | ninf => have := hx.2; rw [e] at this; exact this.elim
      | nan => exact absurd e ob
  split_ifs with hz
  · exact ⟨by show ((0 : ℚ) : ℝ) ≤ _; rw [Rat.cast_zero]; exact pow_even_nonneg hz.1 x, hup⟩
  · refine ⟨?_, hup⟩
    show (v1.min2 v2).val.Lower _
    have key : n % 2 = 1 ∨ 0 ≤ x → (X.a.val.Lower 0 → n % 2 = 1) → (v1.min2 v2).val.Lower (x ^ n) := by
      intro hs hl
      refine Dbl.lower_of_le l1 ?_
      cases e : X.a.val with
      | fin a =>
        have ha : (a : ℝ) ≤ x := by have := hx.1; rw [e] at this; exact this
        refine lower_trans (hp.down _ _ _ a h1 e) ?_
        rcases Nat.mod_two_eq_zero_or_one n with he | ho
        · have a0 : ¬ (a : ℝ) ≤ 0 := fun h' => by
            have := hl (by rw [e]; exact h'); omega
          exact pow_le_pow_left₀ (not_le.1 a0).le ha n
        · exact pow_mono_odd ho ha
      | ninf =>
        rw [hp.ninf _ _ _ _ hn h1 e]
        have := hl (by rw [e]; trivial)
        rw [if_neg (by omega)]
        trivial
      | pinf => have := hx.1; rw [e] at this; exact this.elim
      | nan => exact absurd e oa
    rcases Nat.mod_two_eq_zero_or_one n with he | ho
    · have hc : ¬ X.Mem 0 := by
        intro h0
        refine hz ⟨he, ?_⟩
        show (Dbl.le X.a.val (.fin ((0 : ℤ) : ℚ)) && Dbl.le (.fin ((0 : ℤ) : ℚ)) X.b.val) = true
        have k1 := h0.1
        have k2 := h0.2
        revert k1 k2
        cases X.a.val <;> cases X.b.val <;> simp +contextual [Dbl.le, Dbl.Lower, Dbl.Upper]
      by_cases ha : X.a.val.Lower 0
      · -- the interval is negative
        have hb : ¬ X.b.val.Upper 0 := fun h' => hc ⟨ha, h'⟩
        refine Dbl.lower_of_le l2 ?_
        cases e : X.b.val with
        | fin b =>
          have hb' : x ≤ (b : ℝ) := by have := hx.2; rw [e] at this; exact this
          have b0 : (b : ℝ) < 0 := by
            by_contra hcon
            exact hb (by rw [e]; exact not_lt.1 hcon)
          exact lower_trans (hp.down _ _ _ b h2 e) (pow_even_le he (by
            rw [abs_of_neg b0, abs_of_neg (hb'.trans_lt b0)]; linarith))
        | pinf => exact absurd (by rw [e]; trivial) hb
        | ninf => have := hx.2; rw [e] at this; exact this.elim
        | nan => exact absurd e ob
      · have x0 : 0 ≤ x := by
          by_contra hcon
          exact ha (lower_trans hx.1 (not_le.1 hcon).le)
        exact key (Or.inr x0) fun h' => absurd h' ha
    · exact key (Or.inl ho) fun _ => ho

/-- Exact powers of integers and rounded powers of doubles, with the IEEE values at the infinities. -/
def ieeePow (m : Mode) (x : Num) (n : ℕ) : Except Err Num :=
  match x with
  | .int z => .ok (.int (z ^ n))
  | .dbl (.fin p) => .ok (.dbl (round m (p ^ n)))
  | .dbl .pinf => .ok (.dbl .pinf)
  | .dbl .ninf => .ok (.dbl (if n % 2 = 0 then .pinf else .ninf))
  | .dbl .nan => .ok (.dbl .nan)

/-- The assumption can be met. -/
theorem ieeePow_spec : PowIEEE ieeePow := by
  refine ⟨?_, ?_, ?_, ?_⟩
  · intro x n v p h hx
    cases x with
    | int z => cases h; cases hx; show (((z ^ n : ℤ) : ℚ) : ℝ) ≤ _; push_cast; exact le_refl _
    | dbl d =>
      cases d <;> cases hx
      cases h
      exact round_down_lower (by push_cast; exact le_refl _)
  · intro x n v p h hx
    cases x with
    | int z => cases h; cases hx; show _ ≤ (((z ^ n : ℤ) : ℚ) : ℝ); push_cast; exact le_refl _
    | dbl d =>
      cases d <;> cases hx
      cases h
      exact round_up_upper (by push_cast; exact le_refl _)
  · intro m x n v _ h hx
    cases x with
    | int z => cases hx
    | dbl d => cases d <;> cases hx; cases h; rfl
  · intro m x n v _ h hx
    cases x with
    | int z => cases hx
    | dbl d => cases d <;> cases hx; cases h; rfl

/-- `[-inf, 2] ** 2` is `[0, inf]`, `[-inf, -2] ** 2` is `[4, inf]`, `[-inf, 2] ** 3` is `[-inf, 8]`. -/
example : (FIv.powC ieeePow ⟨.classical, .dbl .ninf, .int 2⟩ 2 .nearest).1 = .ok ⟨.classical, .dbl (.fin 0), .dbl .pinf⟩ ∧
    (FIv.powC ieeePow ⟨.classical, .dbl .ninf, .int (-2)⟩ 2 .nearest).1 = .ok ⟨.classical, .int 4, .dbl .pinf⟩ ∧
    (FIv.powC ieeePow ⟨.classical, .dbl .ninf, .int 2⟩ 3 .nearest).1 = .ok ⟨.classical, .dbl .ninf, .int 8⟩ := by
  decide +kernel

end IntvalPy
