import Verif.ProofsElem
import Verif.PropsFloatWit
import Mathlib.Analysis.SpecialFunctions.Pow.Real
import Mathlib.Analysis.Complex.ExponentialBounds

/-!
# L1 properties of exp, log, sqrt and real powers (C28, C06) and of the rounding mode around them (C07)
-/

set_option autoImplicit false
set_option linter.unusedSectionVars false

namespace IntvalPy
open FIv

/-! ## C07 for the elementary functions -/

theorem Restores.trigEnd (sh : Shift) (lo hi : Num) (ext : ℤ) (next : Dbl → Dbl) (v : Num) :
    Restores (FIv.trigEnd sh lo hi ext next v) := by
  have hs : ∀ v, Restores (shifted sh v) := by
    intro v; cases sh <;> first | exact Restores.op _ | exact Restores.pure _
  have ht : ∀ v, Restores (turns sh v) := fun v =>
    Restores.bind (hs v) fun _ => Restores.bind (Restores.op _) fun _ => Restores.op _
  refine Restores.bind (Restores.bind (ht _) fun _ => Restores.bind (ht _) fun _ => Restores.pure _) fun b => ?_
  cases b
  · exact Restores.bind (Restores.op _) fun _ => Restores.pure _
  · exact Restores.pure _

theorem Restores.trig (f : Mode → Num → Except Err Num) (s1 s2 : Shift) (x : FIv) :
    Restores (FIv.trig f s1 s2 x) := by
  refine Restores.bind (Restores.op _) fun _ => Restores.bind (Restores.op _) fun _ => ?_
  split
  · exact Restores.bind (Restores.withRounding _ _) fun _ => Restores.bind (Restores.withRounding _ _) fun _ =>
      Restores.pure _
  · exact Restores.bind (Restores.withRounding _ _) fun _ => Restores.bind (Restores.withRounding _ _) fun _ =>
      Restores.pure _

theorem Restores.exp (lm : Libm) (x : FIv) : Restores (FIv.exp lm x) := by
  intro s
  have h : Restores (do
    let p ← M.op fun m => toD (lm.exp m x.a)
    let q ← M.op fun m => toD (lm.exp m x.b)
    return (⟨x.cls, .dbl (nextDown p), .dbl (nextUp q)⟩ : FIv)) :=
    Restores.bind (Restores.op _) fun _ => Restores.bind (Restores.op _) fun _ => Restores.pure _
  have hs := h s
  unfold FIv.exp catchOverflow
  revert hs
  generalize (do
    let p ← M.op fun m => toD (lm.exp m x.a)
    let q ← M.op fun m => toD (lm.exp m x.b)
    return (⟨x.cls, .dbl (nextDown p), .dbl (nextUp q)⟩ : FIv) : M FIv) s = r
  intro hs
  rcases r with ⟨r, s'⟩
  simp only at hs
  subst hs
  cases r with
  | ok v => rfl
  | error e => cases e <;> rfl

theorem Restores.log (lg : Mode → Num → Except Err Num) (x : FIv) : Restores (FIv.log lg x) := by
  unfold FIv.log
  dsimp only
  split_ifs <;>
    first
      | exact Restores.pure _
      | exact Restores.bind (Restores.withRounding _ _) fun _ => Restores.bind (Restores.withRounding _ _) fun _ =>
          Restores.pure _

/-- C07 for the elementary functions: whatever the library functions do, `exp`, `log`, `sqrt`, `sin`, `cos` and
powers with real or interval exponents leave the rounding mode as they found it, also when they raise. -/
theorem C07_mode_restored_elementary (lm : Libm) (x y : FIv) (c : Num) :
    Restores (FIv.exp lm x) ∧ Restores (FIv.log lm.log x) ∧ Restores (FIv.sqrt lm x) ∧
    Restores (FIv.sin lm x) ∧ Restores (FIv.cos lm x) ∧ Restores (FIv.powReal lm x c) ∧
    Restores (FIv.powIv lm x y) := by
  refine ⟨Restores.exp _ _, Restores.log _ _, ?_, Restores.trig _ _ _ _, Restores.trig _ _ _ _, ?_, ?_⟩
  · exact Restores.bind (Restores.log _ _) fun _ => Restores.bind (Restores.rmul _ _) fun _ => Restores.exp _ _
  · unfold FIv.powReal
    split
    · exact Restores.bind (Restores.log _ _) fun _ => Restores.bind (Restores.rmul _ _) fun _ => Restores.exp _ _
    · exact Restores.raise _
  · unfold FIv.powIv
    split
    · exact Restores.bind (Restores.log _ _) fun _ => Restores.bind (Restores.mul _ _) fun _ => Restores.exp _ _
    · exact Restores.raise _

/-- A raising call: `[-1, 1] ** 0.5` is rejected and the mode stays `FE_UPWARD`. -/
example (lm : Libm) : FIv.powReal lm ⟨.classical, .int (-1), .int 1⟩ (.dbl (.fin (1 / 2))) .up =
    (.error .valueError, .up) := rfl

/-! ## Running the model -/

theorem run_bind_ok {α β : Type} {x : M α} {f : α → M β} {s : Mode} {a : α} (h : x s = (.ok a, s)) :
    (x >>= f) s = f a s := by rw [run_bind, h]

theorem run_op_ok {α : Type} {f : Mode → Except Err α} {s : Mode} {a : α} (h : f s = .ok a) :
    M.op f s = (.ok a, s) := by unfold M.op; rw [h]

theorem toD_dbl (d : Dbl) : toD (.ok (.dbl d)) = .ok d := rfl

theorem Dbl.le_of_bounds {d e : Dbl} {x : ℝ} (hd : d.Lower x) (he : e.Upper x) : Dbl.le d e = true := by
  cases d <;> cases e <;> simp only [Dbl.Lower, Dbl.Upper] at hd he <;> simp only [Dbl.le]
  rw [decide_eq_true_eq]; exact_mod_cast hd.trans he

theorem FIv.Mem.le {X : FIv} {x : ℝ} (h : X.Mem x) : X.a.le X.b = true := Dbl.le_of_bounds h.1 h.2

theorem num_eq_of_val {n : Num} {d : Dbl} (h : n.val = d) (hd : ∀ q, d ≠ .fin q) : n = .dbl d := by
  cases n with
  | int z => exact absurd h.symm (hd _)
  | dbl e => rw [← h]; rfl

/-! ## exp -/

/-- The body of `exp` succeeds. -/
theorem exp_run {lm : Libm} {X : FIv} {s : Mode} {p q : Dbl}
    (hp : toD (lm.exp s X.a) = .ok p) (hq : toD (lm.exp s X.b) = .ok q) :
    FIv.exp lm X s = (.ok ⟨X.cls, .dbl (nextDown p), .dbl (nextUp q)⟩, s) := by
  unfold FIv.exp catchOverflow
  rw [run_bind_ok (run_op_ok (f := fun m => toD (lm.exp m X.a)) hp),
    run_bind_ok (run_op_ok (f := fun m => toD (lm.exp m X.b)) hq)]
  rfl

/-- A call of `exp` in which one of the library calls overflows returns `[inf, inf]`. -/
theorem exp_overflow {lm : Libm} {X : FIv} {s : Mode} (h : lm.exp s X.a = .error .overflowError ∨
    ((∃ p, toD (lm.exp s X.a) = .ok p) ∧ lm.exp s X.b = .error .overflowError)) :
    FIv.exp lm X s = (.ok ⟨X.cls, .dbl .pinf, .dbl .pinf⟩, s) := by
  unfold FIv.exp catchOverflow
  rcases h with h | ⟨⟨p, hp⟩, h⟩
  · rw [run_bind]; simp only [M.op, toD, h]; rfl
  · rw [run_bind_ok (run_op_ok (f := fun m => toD (lm.exp m X.a)) hp), run_bind]
    simp only [M.op, toD, h]; rfl

theorem nextDown_lower_zero {x : ℝ} (hx : 0 ≤ x) : (nextDown (.fin 0)).Lower x := by
  rw [nextDown_small (by simp)]
  show ((floorTo (0 - tinyQ) : ℚ) : ℝ) ≤ x
  have h1 : floorTo (0 - tinyQ) ≤ 0 := (floorTo_le _).trans (by linarith [tinyQ_pos])
  exact le_trans (by exact_mod_cast h1) hx

theorem nextUp_upper_zero {x : ℝ} (hx : x ≤ 0) : (nextUp (.fin 0)).Upper x := by
  rw [nextUp_small (by simp)]
  show x ≤ ((ceilTo (0 + tinyQ) : ℚ) : ℝ)
  have h1 : 0 ≤ ceilTo (0 + tinyQ) := le_trans (by linarith [tinyQ_pos]) (le_ceilTo _)
  exact hx.trans (by exact_mod_cast h1)

/-- Bounds transfer from an argument to the exponential. -/
theorem exp_bounds {lm : Libm} (hexp : ExpOK lm.exp) {X : FIv} {s : Mode}
    (hI : X.a.IntsLe (2 ^ 53) ∧ X.b.IntsLe (2 ^ 53)) {Y : FIv}
    (hrun : FIv.exp lm X s = (.ok Y, s)) (hno : Y ≠ ⟨X.cls, .dbl .pinf, .dbl .pinf⟩) (hb : X.b.val ≠ .pinf) :
    Y.cls = X.cls ∧ (∀ x : ℝ, X.a.val.Lower x → Y.a.val.Lower (Real.exp x)) ∧
      (∀ x : ℝ, X.b.val.Upper x → Y.b.val.Upper (Real.exp x)) ∧
      (X.a.val = .ninf → ∀ x : ℝ, 0 ≤ x → Y.a.val.Lower x) ∧
      (X.b.val = .ninf → ∀ x : ℝ, x ≤ 0 → Y.b.val.Upper x) := by
  -- the two library calls
  have call : ∀ n : Num, n.IntsLe (2 ^ 53) →
      (∃ p, toD (lm.exp s n) = .ok p ∧
        (∀ q, n.val = .fin q → ∃ y, p = .fin y ∧ (nextDown (.fin y)).Lower (Real.exp q) ∧
          (nextUp (.fin y)).Upper (Real.exp q)) ∧ (n.val = .ninf → p = .fin 0)) ∨
      lm.exp s n = .error .overflowError := by
    intro n hn
    cases e : n.val with
    | fin q =>
      rcases hexp.fin s n q hn e with ⟨y, h1, h2, h3⟩ | ⟨h1, _⟩
      · left
        refine ⟨.fin y, by rw [h1]; rfl, fun q' h => ?_, fun h => by cases h⟩
        cases h; exact ⟨y, rfl, h2, h3⟩
      · exact Or.inr h1
    | ninf =>
      left
      rw [num_eq_of_val e (by simp), hexp.ninf]
      exact ⟨_, rfl, fun q h => (by cases h), fun _ => rfl⟩
    | pinf =>
      left
      rw [num_eq_of_val e (by simp), hexp.pinf]
      exact ⟨_, rfl, fun q h => (by cases h), fun h => (by cases h)⟩
    | nan =>
      left
      rw [num_eq_of_val e (by simp), hexp.nan]
      exact ⟨_, rfl, fun q h => (by cases h), fun h => (by cases h)⟩
  rcases call X.a hI.1 with ⟨p, hp, hp', hp0⟩ | ho
  · rcases call X.b hI.2 with ⟨q, hq, hq', hq0⟩ | ho
    · rw [exp_run hp hq] at hrun
      cases hrun
      refine ⟨rfl, ?_, ?_, ?_, ?_⟩
      · intro x hx
        show (nextDown p).Lower _
        cases e : X.a.val with
        | fin t =>
          rw [e] at hx
          obtain ⟨y, rfl, h1, _⟩ := hp' t e
          have hle : Real.exp t ≤ Real.exp x := Real.exp_le_exp.mpr hx
          revert h1
          generalize nextDown (.fin y) = d
          intro h1
          cases d <;> simp only [Dbl.Lower] at h1 ⊢
          exact h1.trans hle
        | ninf => rw [hp0 e]; exact nextDown_lower_zero (Real.exp_pos _).le
        | pinf => rw [e] at hx; exact hx.elim
        | nan => rw [e] at hx; exact hx.elim
      · intro x hx
        show (nextUp q).Upper _
        cases e : X.b.val with
        | fin t =>
          rw [e] at hx
          obtain ⟨y, rfl, _, h1⟩ := hq' t e
          have hle : Real.exp x ≤ Real.exp t := Real.exp_le_exp.mpr hx
          revert h1
          generalize nextUp (.fin y) = d
          intro h1
          cases d <;> simp only [Dbl.Upper] at h1 ⊢
          exact hle.trans h1
        | ninf => rw [e] at hx; exact hx.elim
        | pinf => exact absurd e hb
        | nan => rw [e] at hx; exact hx.elim
      · intro e x hx
        show (nextDown p).Lower _
        rw [hp0 e]; exact nextDown_lower_zero hx
      · intro e x hx
        show (nextUp q).Upper _
        rw [hq0 e]; exact nextUp_upper_zero hx
    · rw [exp_overflow (Or.inr ⟨⟨p, hp⟩, ho⟩)] at hrun
      cases hrun; exact absurd rfl hno
  · rw [exp_overflow (Or.inl ho)] at hrun
    cases hrun; exact absurd rfl hno

/-- `exp` always returns. -/
theorem exp_total {lm : Libm} (hexp : ExpOK lm.exp) (X : FIv) (s : Mode)
    (hI : X.a.IntsLe (2 ^ 53) ∧ X.b.IntsLe (2 ^ 53)) : ∃ Y, FIv.exp lm X s = (.ok Y, s) := by
  have call : ∀ n : Num, n.IntsLe (2 ^ 53) →
      (∃ p, toD (lm.exp s n) = .ok p) ∨ lm.exp s n = .error .overflowError := by
    intro n hn
    cases e : n.val with
    | fin q =>
      rcases hexp.fin s n q hn e with ⟨y, h1, _⟩ | ⟨h1, _⟩
      · left; exact ⟨.fin y, by rw [h1]; rfl⟩
      · exact Or.inr h1
    | ninf => left; rw [num_eq_of_val e (by simp), hexp.ninf]; exact ⟨_, rfl⟩
    | pinf => left; rw [num_eq_of_val e (by simp), hexp.pinf]; exact ⟨_, rfl⟩
    | nan => left; rw [num_eq_of_val e (by simp), hexp.nan]; exact ⟨_, rfl⟩
  rcases call X.a hI.1 with ⟨p, hp⟩ | ho
  · rcases call X.b hI.2 with ⟨q, hq⟩ | ho
    · exact ⟨_, exp_run hp hq⟩
    · exact ⟨_, exp_overflow (Or.inr ⟨⟨p, hp⟩, ho⟩)⟩
  · exact ⟨_, exp_overflow (Or.inl ho)⟩

/-- C28 for `exp`, as documented: the result contains the exponential of every member. -/
def C28_exp_statement (lm : Libm) : Prop :=
  ∀ (X : FIv) (s : Mode) (x : ℝ), X.a.IntsLe (2 ^ 53) → X.b.IntsLe (2 ^ 53) → X.Mem x →
    ∃ Y, FIv.exp lm X s = (.ok Y, s) ∧ Y.Mem (Real.exp x)

/-- C28 for `exp`: the part that holds.  If the interval is bounded above and the call does not return the
overflow answer `[inf, inf]`, the result contains the exponential of every member.  Missing: the overflow
answer and an infinite upper endpoint, see `C28_exp_overflow_false` and `C28_exp_unbounded_false`. -/
theorem C28_exp_encloses_partial (lm : Libm) (hexp : ExpOK lm.exp) (X : FIv) (s : Mode)
    (hI : X.a.IntsLe (2 ^ 53) ∧ X.b.IntsLe (2 ^ 53)) (hb : X.b.val ≠ .pinf) :
    ∃ Y, FIv.exp lm X s = (.ok Y, s) ∧
      (Y = ⟨X.cls, .dbl .pinf, .dbl .pinf⟩ ∨ (Y.cls = X.cls ∧ ∀ x : ℝ, X.Mem x → Y.Mem (Real.exp x))) := by
  obtain ⟨Y, hY⟩ := exp_total hexp X s hI
  refine ⟨Y, hY, ?_⟩
  by_cases h : Y = ⟨X.cls, .dbl .pinf, .dbl .pinf⟩
  · exact Or.inl h
  · obtain ⟨h1, h2, h3, _⟩ := exp_bounds hexp hI hY h hb
    exact Or.inr ⟨h1, fun x hx => ⟨h2 x hx.1, h3 x hx.2⟩⟩

/-- With an upper endpoint up to 400 the overflow answer cannot occur. -/
theorem C28_exp_encloses_moderate (lm : Libm) (hexp : ExpOK lm.exp) (X : FIv) (s : Mode) (q : ℚ)
    (hI : X.a.IntsLe (2 ^ 53) ∧ X.b.IntsLe (2 ^ 53)) (hb : X.b.val = .fin q) (hq : q ≤ 400) :
    ∃ Y, FIv.exp lm X s = (.ok Y, s) ∧ ∀ x : ℝ, X.Mem x → Y.Mem (Real.exp x) := by
  obtain ⟨Y, hY, h⟩ := C28_exp_encloses_partial lm hexp X s hI (by rw [hb]; simp)
  refine ⟨Y, hY, fun x hx => ?_⟩
  rcases h with h | h
  · exfalso
    -- neither call can have overflowed
    have ha : ∃ p, toD (lm.exp s X.a) = .ok p := by
      cases e : X.a.val with
      | fin p =>
        rcases hexp.fin s X.a p hI.1 e with ⟨y, h1, _⟩ | ⟨_, h1⟩
        · exact ⟨.fin y, by rw [h1]; rfl⟩
        · exfalso
          have h2 := hx.1
          have h3 := hx.2
          rw [e] at h2; rw [hb] at h3
          have : (p : ℝ) ≤ q := le_trans h2 h3
          have : p ≤ q := by exact_mod_cast this
          linarith
      | ninf => rw [num_eq_of_val e (by simp), hexp.ninf]; exact ⟨_, rfl⟩
      | pinf => rw [num_eq_of_val e (by simp), hexp.pinf]; exact ⟨_, rfl⟩
      | nan => rw [num_eq_of_val e (by simp), hexp.nan]; exact ⟨_, rfl⟩
    obtain ⟨p, hp⟩ := ha
    rcases hexp.fin s X.b q hI.2 hb with ⟨y, h1, _⟩ | ⟨_, h1⟩
    · rw [exp_run hp (by rw [h1]; rfl)] at hY
      have hY' := congrArg Prod.fst hY
      simp only [Except.ok.injEq] at hY'
      rw [h] at hY'
      have := congrArg (fun Z : FIv => Z.a) hY'
      simp only [Num.dbl.injEq] at this
      cases p <;> simp only [nextDown] at this
      · split_ifs at this
      all_goals cases this
    · linarith
  · exact h.2 x hx

/-- C28 is false for `exp`: when the exponential of the upper endpoint overflows, the answer is `[inf, inf]`
and does not contain `exp 0 = 1`. -/
theorem C28_exp_overflow_false (lm : Libm) (hexp : ExpOK lm.exp)
    (hov : ∀ m, lm.exp m (.int 1000) = .error .overflowError) : ¬ C28_exp_statement lm := by
  intro h
  obtain ⟨Y, hY, hm⟩ := h ⟨.classical, .int 0, .int 1000⟩ .nearest 0 (by norm_num [Num.IntsLe])
    (by norm_num [Num.IntsLe]) ⟨by simp [Num.val, Dbl.Lower], by simp [Num.val, Dbl.Upper]⟩
  have h0 : ∃ p, toD (lm.exp .nearest (.int 0)) = .ok p := by
    rcases hexp.fin .nearest (.int 0) 0 (by norm_num [Num.IntsLe]) (by simp [Num.val]) with ⟨y, h1, _⟩ | ⟨_, h1⟩
    · exact ⟨.fin y, by rw [h1]; rfl⟩
    · norm_num at h1
  rw [exp_overflow (Or.inr ⟨h0, hov _⟩)] at hY
  cases hY
  exact hm.1

/-- C28 is false for `exp` of an interval that is unbounded above: the upper endpoint of the result is the largest
double, and `exp 1000` lies above it. -/
theorem C28_exp_unbounded_false (lm : Libm) (hexp : ExpOK lm.exp) : ¬ C28_exp_statement lm := by
  intro h
  obtain ⟨Y, hY, hm⟩ := h ⟨.classical, .int 0, .dbl .pinf⟩ .nearest 2000 (by norm_num [Num.IntsLe]) trivial
    ⟨by simp [Num.val, Dbl.Lower], trivial⟩
  have h0 : ∃ p, toD (lm.exp .nearest (.int 0)) = .ok p := by
    rcases hexp.fin .nearest (.int 0) 0 (by norm_num [Num.IntsLe]) (by simp [Num.val]) with ⟨y, h1, _⟩ | ⟨_, h1⟩
    · exact ⟨.fin y, by rw [h1]; rfl⟩
    · norm_num at h1
  obtain ⟨p, hp⟩ := h0
  rw [exp_run hp (q := .pinf) (by rw [hexp.pinf]; rfl)] at hY
  cases hY
  have h1 : Real.exp 2000 ≤ ((maxFin : ℚ) : ℝ) := hm.2
  have h2 : (2 : ℝ) ^ 2000 ≤ Real.exp 2000 := by
    have := Real.add_one_le_exp (1 : ℝ)
    have e : Real.exp 2000 = Real.exp 1 ^ 2000 := by rw [← Real.exp_nat_mul]; norm_num
    rw [e]
    exact pow_le_pow_left₀ (by norm_num) (by linarith) _
  have h3 : ((maxFin : ℚ) : ℝ) ≤ 2 ^ 1024 := by
    have : (maxFin : ℚ) ≤ 2 ^ 53 * 2 ^ 971 := by
      unfold maxFin
      exact mul_le_mul_of_nonneg_right (by norm_num) (by positivity)
    rw [← pow_add] at this
    exact_mod_cast this
  have h4 : (2 : ℝ) ^ 1024 < 2 ^ 2000 := pow_lt_pow_right₀ (by norm_num) (by norm_num)
  exact absurd (h2.trans (h1.trans h3)) (not_le.mpr h4)

/-! ## log -/

/-- The value chosen for one endpoint of `log`. -/
theorem log_atom {lg : Mode → Num → Except Err Num} {m : Mode} {t v : Num}
    (h : (if t.val = .fin 0 then Except.ok (.dbl .ninf) else lg m t) = .ok v) (hv : v.IntsLe (2 ^ 53)) :
    ((FIv.store (if t.val = .fin 0 then pure (.dbl .ninf) else M.op fun m => lg m t)) m).1 =
      .ok (.dbl v.val) := by
  refine run_store ?_ hv
  split_ifs at h ⊢ with h0
  · exact h
  · exact h

/-- `pro` of an interval whose ends are in order: the same values (the upper end may be the other one of two equal
numbers). -/
theorem pro_of_le {X : FIv} (h : X.a.le X.b = true) :
    X.proLo = X.a ∧ (X.proHi = X.b ∨ X.proHi = X.a) ∧ X.proHi.val = X.b.val := by
  have h1 : X.b.lt X.a = false := by
    unfold Num.le at h
    unfold Num.lt
    cases e : X.a.val <;> cases e' : X.b.val <;> rw [e, e'] at h <;> simp_all [Dbl.lt, Dbl.le]
  cases hc : X.cls with
  | classical => simp [FIv.proLo, FIv.proHi, hc]
  | kaucher =>
    simp only [FIv.proLo, FIv.proHi, hc, Num.min2, Num.max2, h1, Bool.false_eq_true, if_false, true_and]
    by_cases h2 : X.a.lt X.b = true
    · simp [h2]
    · rw [if_neg h2]
      refine ⟨Or.inr rfl, ?_⟩
      unfold Num.le at h
      unfold Num.lt at h1 h2
      cases e : X.a.val <;> cases e' : X.b.val <;> rw [e, e'] at h h1 h2 <;> simp_all [Dbl.lt, Dbl.le]
      linarith

/-- `pro` of an improper interval: the ends exchanged. -/
theorem pro_of_lt {X : FIv} (hc : X.cls = .kaucher) (h : X.b.lt X.a = true) : X.proLo = X.b ∧ X.proHi = X.a := by
  have h1 : X.a.lt X.b = false := by
    unfold Num.lt at h ⊢
    cases e : X.a.val <;> cases e' : X.b.val <;> rw [e, e'] at h <;> simp_all [Dbl.lt]
    linarith
  simp [FIv.proLo, FIv.proHi, hc, Num.min2, Num.max2, h, h1]

theorem log_run {lg : Mode → Num → Except Err Num} {X : FIv} {s : Mode} {v w : Num} (hle : X.a.le X.b = true)
    (hmx : (X.a.max2 (.dbl (.fin 0))).le X.proHi = true)
    (hv : (if (X.a.max2 (.dbl (.fin 0))).val = .fin 0 then Except.ok (.dbl .ninf)
      else lg .down (X.a.max2 (.dbl (.fin 0)))) = .ok v)
    (hw : (if X.proHi.val = .fin 0 then Except.ok (.dbl .ninf) else lg .up X.proHi) = .ok w)
    (iv : v.IntsLe (2 ^ 53)) (iw : w.IntsLe (2 ^ 53)) :
    FIv.log lg X s = (.ok ⟨X.cls, .dbl v.val, .dbl w.val⟩, s) := by
  unfold FIv.log
  simp only [(pro_of_le hle).1, hle, if_true, hmx]
  exact run_two_ok (f := fun i j => ⟨X.cls, i, j⟩) (log_atom hv iv) (log_atom hw iw)

theorem max2_zero (n : Num) : n.max2 (.dbl (.fin 0)) = if n.lt (.dbl (.fin 0)) then .dbl (.fin 0) else n := rfl

/-- Endpoints of `log` of an interval with a positive member: minus infinity or a lower bound of the logarithm of the
lower endpoint; plus infinity or an upper bound of the logarithm of the upper endpoint. -/
theorem log_bounds {lm : Libm} (hlog : LogOK lm.log) {X : FIv} {s : Mode}
    (hI : X.a.IntsLe (2 ^ 53) ∧ X.b.IntsLe (2 ^ 53)) {x : ℝ} (hx : 0 < x) (hm : X.Mem x) :
    ∃ p q, FIv.log lm.log X s = (.ok ⟨X.cls, .dbl p, .dbl q⟩, s) ∧
      ((p = .ninf ∧ ∀ t, X.a.val = .fin t → t ≤ 0) ∨
        ∃ t y : ℚ, X.a.val = .fin t ∧ 0 < t ∧ p = .fin y ∧ (y : ℝ) ≤ Real.log t ∧ Real.log t - 1 ≤ y) ∧
      ((q = .pinf ∧ X.b.val = .pinf) ∨
        ∃ t y : ℚ, X.b.val = .fin t ∧ 0 < t ∧ q = .fin y ∧ Real.log t ≤ y ∧ (y : ℝ) ≤ Real.log t + 1) := by
  have hle := hm.le
  obtain ⟨-, hH, hHv⟩ := pro_of_le hle
  have hHI : X.proHi.IntsLe (2 ^ 53) := by rcases hH with h | h <;> rw [h]; exacts [hI.2, hI.1]
  -- the lower endpoint
  have lower : (X.a.max2 (.dbl (.fin 0))).le X.proHi = true ∧ ∃ p,
      (if (X.a.max2 (.dbl (.fin 0))).val = .fin 0 then Except.ok (.dbl .ninf)
        else lm.log .down (X.a.max2 (.dbl (.fin 0)))) = .ok (.dbl p) ∧
      ((p = .ninf ∧ ∀ t, X.a.val = .fin t → t ≤ 0) ∨
        ∃ t y : ℚ, X.a.val = .fin t ∧ 0 < t ∧ p = .fin y ∧ (y : ℝ) ≤ Real.log t ∧ Real.log t - 1 ≤ y) := by
    have h0 : (Num.dbl (.fin 0)).le X.proHi = true := by
      unfold Num.le
      rw [hHv]
      exact Dbl.le_of_bounds (x := x) (by show ((0 : ℚ) : ℝ) ≤ x; simpa using hx.le) hm.2
    rw [max2_zero]
    by_cases hlt : X.a.lt (.dbl (.fin 0)) = true
    · rw [if_pos hlt]
      refine ⟨h0, .ninf, by simp [Num.val], Or.inl ⟨rfl, fun t ht => ?_⟩⟩
      unfold Num.lt at hlt
      rw [ht] at hlt
      simp only [Num.val, Dbl.lt, decide_eq_true_eq] at hlt
      exact hlt.le
    · rw [if_neg hlt]
      refine ⟨by unfold Num.le at hle ⊢; rw [hHv]; exact hle, ?_⟩
      cases e : X.a.val with
      | fin t =>
        by_cases ht : t = 0
        · subst ht
          exact ⟨.ninf, by simp, Or.inl ⟨rfl, fun t ht => (by cases ht; exact le_refl _)⟩⟩
        · have hpos : 0 < t := by
            unfold Num.lt at hlt
            rw [e] at hlt
            simp only [Num.val, Dbl.lt, decide_eq_true_eq, not_lt] at hlt
            exact lt_of_le_of_ne hlt (Ne.symm ht)
          obtain ⟨y, h1, h2, h3⟩ := hlog.down X.a t hI.1 e hpos
          exact ⟨.fin y, by simpa [ht] using h1, Or.inr ⟨t, y, rfl, hpos, rfl, h2, h3⟩⟩
      | ninf => unfold Num.lt at hlt; rw [e] at hlt; simp [Num.val, Dbl.lt] at hlt
      | pinf => have := hm.1; rw [e] at this; exact this.elim
      | nan => have := hm.1; rw [e] at this; exact this.elim
  have upper : ∃ q, (if X.proHi.val = .fin 0 then Except.ok (.dbl .ninf) else lm.log .up X.proHi) = .ok (.dbl q) ∧
      ((q = .pinf ∧ X.b.val = .pinf) ∨
        ∃ t y : ℚ, X.b.val = .fin t ∧ 0 < t ∧ q = .fin y ∧ Real.log t ≤ y ∧ (y : ℝ) ≤ Real.log t + 1) := by
    rw [hHv]
    cases e : X.b.val with
    | fin t =>
      have h1 := hm.2
      rw [e] at h1
      have hpos : 0 < t := by
        have : (0 : ℝ) < t := lt_of_lt_of_le hx h1
        exact_mod_cast this
      obtain ⟨y, h1, h2, h3⟩ := hlog.up X.proHi t hHI (hHv.trans e) hpos
      exact ⟨.fin y, by simpa [hpos.ne'] using h1, Or.inr ⟨t, y, rfl, hpos, rfl, h2, h3⟩⟩
    | pinf =>
      rw [num_eq_of_val (hHv.trans e) (by simp)]
      exact ⟨.pinf, by simp [hlog.pinf], Or.inl ⟨rfl, rfl⟩⟩
    | ninf => have := hm.2; rw [e] at this; exact this.elim
    | nan => have := hm.2; rw [e] at this; exact this.elim
  obtain ⟨hmx, p, hp, hp'⟩ := lower
  obtain ⟨q, hq, hq'⟩ := upper
  exact ⟨p, q, log_run hle hmx hp hq trivial trivial, hp', hq'⟩

/-- C28 for `log`: for any interval (bounded or not) and every positive member, the result contains its logarithm;
an interval below zero gives NaN endpoints. -/
theorem C28_log_encloses (lm : Libm) (hlog : LogOK lm.log) (X : FIv) (s : Mode)
    (hI : X.a.IntsLe (2 ^ 53) ∧ X.b.IntsLe (2 ^ 53)) :
    (∀ x : ℝ, 0 < x → X.Mem x →
      ∃ Y, FIv.log lm.log X s = (.ok Y, s) ∧ Y.cls = X.cls ∧ Y.Mem (Real.log x)) ∧
    (X.a.le X.b = true → X.b.lt (.int 0) = true →
      FIv.log lm.log X s = (.ok ⟨X.cls, .dbl .nan, .dbl .nan⟩, s)) := by
  constructor
  · intro x hx hm
    obtain ⟨p, q, hr, hp, hq⟩ := log_bounds hlog (s := s) hI hx hm
    refine ⟨_, hr, rfl, ?_, ?_⟩
    · show p.Lower _
      rcases hp with ⟨rfl, _⟩ | ⟨t, y, h1, h2, rfl, h3, _⟩
      · trivial
      · have h4 := hm.1
        rw [h1] at h4
        have : (0 : ℝ) < t := by exact_mod_cast h2
        exact h3.trans (Real.log_le_log this h4)
    · show q.Upper _
      rcases hq with ⟨rfl, _⟩ | ⟨t, y, h1, h2, rfl, h3, _⟩
      · trivial
      · have h4 := hm.2
        rw [h1] at h4
        exact (Real.log_le_log hx h4).trans h3
  · intro hle hlt
    have hlt' : Dbl.lt X.b.val (.fin 0) = true := by simpa [Num.lt, Num.val] using hlt
    have h1 : ¬ (X.a.max2 (.dbl (.fin 0))).le X.proHi = true := by
      rw [max2_zero]
      unfold Num.le
      rw [(pro_of_le hle).2.2]
      split_ifs with h
      · cases e : X.b.val <;> rw [e] at hlt' <;> simp_all [Num.val, Dbl.lt, Dbl.le]
      · exfalso
        apply h
        unfold Num.le at hle
        unfold Num.lt
        cases e : X.b.val <;> cases e' : X.a.val <;> rw [e] at hlt' hle <;> rw [e'] at hle <;>
          simp_all [Num.val, Dbl.lt, Dbl.le]
        linarith
    unfold FIv.log
    simp only [(pro_of_le hle).1, if_neg h1]
    rfl

/-! ## sqrt and real powers -/

/-- `np.exp(c * np.log(self))`. -/
def expLog (lm : Libm) (c : Num) (X : FIv) : M FIv := do
  let l ← FIv.log lm.log X
  let h ← FIv.rmul c l
  FIv.exp lm h

theorem rmul_run (c : Num) (q : ℚ) (hq : c.val = .fin q) (hc : c.IntsLe (2 ^ 53)) (p r : Dbl) (s : Mode) :
    FIv.rmul c ⟨.classical, .dbl p, .dbl r⟩ s =
      (.ok ⟨.classical,
        (Num.dbl (Dbl.mul .down (.fin q) p)).min2 (.dbl (Dbl.mul .down (.fin q) r)),
        (Num.dbl (Dbl.mul .up (.fin q) p)).max2 (.dbl (Dbl.mul .up (.fin q) r))⟩, s) := by
  have hm : ∀ m d, Num.mul m c (.dbl d) = .ok (.dbl (Dbl.mul m (.fin q) d)) := by
    intro m d
    have : Num.mul m c (.dbl d) = Num.viaDbl (fun p q => .ok (Dbl.mul m p q)) c (.dbl d) := by
      cases c <;> rfl
    rw [this, viaDbl_of_small _ hc (y := .dbl d) trivial, hq]; rfl
  unfold FIv.rmul
  refine (run_two_ok (v := (Num.dbl (Dbl.mul .down (.fin q) p)).min2 (.dbl (Dbl.mul .down (.fin q) r)))
    (w := (Num.dbl (Dbl.mul .up (.fin q) p)).max2 (.dbl (Dbl.mul .up (.fin q) r))) ?_ ?_)
  · have e : ∀ d e : Dbl, (Num.dbl d).min2 (.dbl e) = .dbl ((Num.dbl d).min2 (.dbl e)).val := by
      intro d e; unfold Num.min2; split_ifs <;> rfl
    rw [e]
    refine run_store ?_ (by unfold Num.min2; split_ifs <;> trivial)
    simp only [run_bind, FIv.nmul, M.op, hm]; rfl
  · have e : ∀ d e : Dbl, (Num.dbl d).max2 (.dbl e) = .dbl ((Num.dbl d).max2 (.dbl e)).val := by
      intro d e; unfold Num.max2; split_ifs <;> rfl
    rw [e]
    refine run_store ?_ (by unfold Num.max2; split_ifs <;> trivial)
    simp only [run_bind, FIv.nmul, M.op, hm]; rfl

theorem round_up_fin {t B : ℚ} (ht : t ≤ B) (h0 : 0 ≤ B) (hB : IsF B) (hM : B ≤ maxFin) :
    ∃ r, round .up t = .fin r ∧ r ≤ B := by
  have h := ceilTo_le hB ht
  have hpos : (0 : ℚ) < maxFin := lt_trans (by norm_num) one_lt_maxFin
  simp only [round]
  rw [if_neg (not_lt.mpr (h.trans hM))]
  split_ifs with h1
  · exact ⟨-maxFin, rfl, by linarith⟩
  · exact ⟨_, rfl, h⟩

theorem log_maxFin {t : ℚ} (ht : 0 < t) (h : t ≤ maxFin) : Real.log t ≤ 710 := by
  have h1 : ((maxFin : ℚ) : ℝ) ≤ 2 ^ 1024 := by
    have : (maxFin : ℚ) ≤ 2 ^ 53 * 2 ^ 971 := by
      unfold maxFin
      exact mul_le_mul_of_nonneg_right (by norm_num) (by positivity)
    rw [← pow_add] at this
    exact_mod_cast this
  have h2 : (0 : ℝ) < t := by exact_mod_cast ht
  have h3 : (t : ℝ) ≤ 2 ^ 1024 := le_trans (by exact_mod_cast h) h1
  have h4 := Real.log_le_log h2 h3
  rw [Real.log_pow] at h4
  have := Real.log_two_lt_d9
  push_cast at h4
  linarith

theorem log_minF {t : ℚ} (h : (2 : ℚ) ^ (-1074 : ℤ) ≤ t) : -745 ≤ Real.log t := by
  have h1 : (0 : ℝ) < 2 ^ (-1074 : ℤ) := two_zpow_pos _
  have h2 : ((2 : ℝ) ^ (-1074 : ℤ)) ≤ t := by
    have := (Rat.cast_le (K := ℝ)).mpr h
    rwa [Rat.cast_zpow, Rat.cast_ofNat] at this
  have h3 := Real.log_le_log h1 h2
  rw [Real.log_zpow] at h3
  have := Real.log_two_lt_d9
  push_cast at h3
  linarith

theorem isF_pos_ge {t : ℚ} (h : IsF t) (ht : 0 < t) : (2 : ℚ) ^ (-1074 : ℤ) ≤ t := by
  obtain ⟨m, e, _, he, rfl⟩ := h
  have hp := two_zpow_pos (K := ℚ) e
  have hm : (0 : ℚ) < m := pos_of_mul_pos_left ht hp.le
  have hm1 : (1 : ℚ) ≤ m := by
    have : (0 : ℤ) < m := by exact_mod_cast hm
    exact_mod_cast this
  have h1 : (2 : ℚ) ^ (-1074 : ℤ) ≤ 2 ^ e := zpow_le_zpow_right₀ (by norm_num) he
  nlinarith

/-- The central fact: `exp(c * log X)` for doubles. -/
theorem expLog_encloses (lm : Libm) (hexp : ExpOK lm.exp) (hlog : LogOK lm.log) (X : FIv) (s : Mode)
    (cX : X.cls = .classical) (hI : X.a.IntsLe (2 ^ 53) ∧ X.b.IntsLe (2 ^ 53))
    (t : ℚ) (hb : X.b.val = .fin t) (htM : t ≤ maxFin) (haF : ∀ p, X.a.val = .fin p → IsF p)
    (c : Num) (q : ℚ) (hc : c.IntsLe (2 ^ 26)) (hq : c.val = .fin q) (hqM : |q| * 800 ≤ maxFin)
    (hsign : 0 < q ∨ (q < 0 ∧ ∃ p, X.a.val = .fin p ∧ 0 < p))
    (x₀ : ℝ) (hx₀ : 0 ≤ x₀) (hm₀ : X.Mem x₀) :
    ∃ Y, expLog lm c X s = (.ok Y, s) ∧
      (0 < q → q ≤ 1 / 2 → Y ≠ ⟨.classical, .dbl .pinf, .dbl .pinf⟩) ∧
      (Y = ⟨.classical, .dbl .pinf, .dbl .pinf⟩ ∨ ∀ x : ℝ, 0 ≤ x → X.Mem x → Y.Mem (x ^ (q : ℝ))) := by
  have hq0 : q ≠ 0 := by rcases hsign with h | ⟨h, _⟩ <;> [exact h.ne'; exact h.ne]
  have hc53 := hc.mono (C := 2 ^ 53) (by norm_num)
  obtain ⟨ca, xa, xb⟩ := X
  simp only at cX hI hb haF hsign
  subst cX
  have ht0 : 0 ≤ t := by
    have h := hm₀.2
    simp only [hb, Dbl.Upper] at h
    exact_mod_cast hx₀.trans h
  rcases ht0.lt_or_eq with ht | ht
  · -- a positive upper endpoint
    have hmt : (⟨.classical, xa, xb⟩ : FIv).Mem (t : ℝ) := by
      refine ⟨?_, by simp only [hb, Dbl.Upper]; exact le_refl _⟩
      have h1 := hm₀.1
      have h2 := hm₀.2
      simp only [hb, Dbl.Upper] at h2
      simp only at h1 ⊢
      generalize xa.val = d at *
      cases d <;> simp only [Dbl.Lower] at h1 ⊢
      exact h1.trans h2
    obtain ⟨p, r, hrun, hp, hr⟩ := log_bounds hlog (s := s) hI (x := (t : ℝ)) (by exact_mod_cast ht) hmt
    rcases hr with ⟨_, h⟩ | ⟨t', y, h1, _, rfl, hy1, hy2⟩
    · simp only [hb] at h; cases h
    simp only [hb, Dbl.fin.injEq] at h1
    subst h1
    have hlt := log_maxFin ht htM
    have hy711 : y ≤ 711 := by
      have : (y : ℝ) ≤ 711 := by linarith
      exact_mod_cast this
    -- the scaled interval
    set Z : FIv := ⟨.classical, (Num.dbl (Dbl.mul .down (.fin q) p)).min2 (.dbl (Dbl.mul .down (.fin q) (.fin y))),
        (Num.dbl (Dbl.mul .up (.fin q) p)).max2 (.dbl (Dbl.mul .up (.fin q) (.fin y)))⟩ with hZ
    have hZrun : FIv.rmul c ⟨.classical, .dbl p, .dbl (.fin y)⟩ s = (.ok Z, s) := rmul_run c q hq hc53 _ _ s
    have hpok : p.Ok := by
      rcases hp with ⟨rfl, _⟩ | ⟨_, y', _, _, rfl, _⟩ <;> simp [Dbl.Ok]
    obtain ⟨Z', hZ'run, hZmem⟩ := C05_float_rmul_encloses ⟨.classical, .dbl p, .dbl (.fin y)⟩ c q s rfl
      ⟨trivial, trivial⟩ hc hq hpok (by simp [Num.val, Dbl.Ok]) (Or.inl hq0)
    have hZZ : Z' = Z := by
      rw [hZrun] at hZ'run
      have := congrArg Prod.fst hZ'run
      simp only [Except.ok.injEq] at this
      exact this.symm
    subst hZZ
    clear hZ'run
    have hZI : Z.a.IntsLe (2 ^ 53) ∧ Z.b.IntsLe (2 ^ 53) := by
      rw [hZ]; constructor
      · show Num.IntsLe (Num.min2 _ _) _; unfold Num.min2; split_ifs <;> trivial
      · show Num.IntsLe (Num.max2 _ _) _; unfold Num.max2; split_ifs <;> trivial
    -- the upper endpoint of the scaled interval is not infinite
    have habs : |q| * |y| ≤ maxFin ∨ y < 0 := by
      by_cases h : y < 0
      · exact Or.inr h
      · left
        rw [abs_of_nonneg (not_lt.mp h)]
        refine le_trans (mul_le_mul_of_nonneg_left ?_ (abs_nonneg _)) hqM
        linarith
    have up1 : ∃ d, Dbl.mul .up (.fin q) (.fin y) = .fin d ∧ (0 < q → q ≤ 1 / 2 → d ≤ 400) := by
      show ∃ d, round .up (q * y) = .fin d ∧ _
      have hq800 : q * y ≤ maxFin := by
        rcases hsign with hs | ⟨hs, p', hp', hp0'⟩
        · rcases habs with h | h
          · exact le_trans ((le_abs_self _).trans (abs_mul q y).le) h
          · have : q * y ≤ 0 := mul_nonpos_of_nonneg_of_nonpos hs.le h.le
            exact this.trans (lt_trans (by norm_num) one_lt_maxFin).le
        · -- then also the lower endpoint is positive and the logarithm is bounded below
          have hpt : (2 : ℚ) ^ (-1074 : ℤ) ≤ t := by
            refine (isF_pos_ge (haF p' hp') hp0').trans ?_
            have := hmt.1
            simp only [hp', Dbl.Lower] at this
            exact_mod_cast this
          have hy0 : -745 ≤ y := by
            have : (-745 : ℝ) ≤ y := (log_minF hpt).trans hy1
            exact_mod_cast this
          have : q * y ≤ |q| * 800 := by
            rw [abs_of_neg hs]; nlinarith
          exact this.trans hqM
      by_cases hs : 0 < q ∧ q ≤ 1 / 2
      · have h400 : q * y ≤ 400 := by
          rcases le_or_gt y 0 with h | h
          · have := mul_nonpos_of_nonneg_of_nonpos hs.1.le h; linarith
          · nlinarith [hs.2]
        obtain ⟨d, h1, h2⟩ := round_up_fin h400 (by norm_num) (by simpa using isF_int (K := ℚ) (z := 400) (by norm_num))
          (le_trans (by norm_num) two53_le_maxFin)
        exact ⟨d, h1, fun _ _ => h2⟩
      · obtain ⟨d, h1, _⟩ := round_up_fin hq800 (lt_trans (by norm_num) one_lt_maxFin).le isF_maxFin (le_refl _)
        exact ⟨d, h1, fun a b => absurd ⟨a, b⟩ hs⟩
    have up2 : Dbl.mul .up (.fin q) p = .ninf ∨
        ∃ d, Dbl.mul .up (.fin q) p = .fin d ∧ (0 < q → q ≤ 1 / 2 → d ≤ 400) := by
      rcases hp with ⟨rfl, hpn⟩ | ⟨t', y', ht', ht0', rfl, hy1', hy2'⟩
      · left
        rcases hsign with hs | ⟨hs, p', hp', hp0'⟩
        · simp [Dbl.mul, Dbl.infTimes, hq0, hs]
        · exact absurd (hpn p' hp') (not_le.mpr hp0')
      · right
        have hle : (y' : ℝ) ≤ 711 := by
          have h1 : (t' : ℝ) ≤ t := by
            have := hmt.1
            simp only [ht', Dbl.Lower] at this
            exact this
          have := Real.log_le_log (by exact_mod_cast ht0') h1
          linarith
        have hge : (-746 : ℝ) ≤ y' := by
          have := log_minF (isF_pos_ge (haF t' ht') ht0')
          linarith
        have hle' : y' ≤ 711 := by exact_mod_cast hle
        have hge' : -746 ≤ y' := by exact_mod_cast hge
        show ∃ d, round .up (q * y') = .fin d ∧ _
        have hq800 : q * y' ≤ maxFin := by
          refine le_trans ((le_abs_self _).trans (abs_mul q y').le) (le_trans ?_ hqM)
          refine mul_le_mul_of_nonneg_left ?_ (abs_nonneg _)
          rw [abs_le]; constructor <;> linarith
        by_cases hs : 0 < q ∧ q ≤ 1 / 2
        · have h400 : q * y' ≤ 400 := by
            rcases le_or_gt y' 0 with h | h
            · have := mul_nonpos_of_nonneg_of_nonpos hs.1.le h; linarith
            · nlinarith [hs.2]
          obtain ⟨d, h1, h2⟩ := round_up_fin h400 (by norm_num) (by simpa using isF_int (K := ℚ) (z := 400) (by norm_num))
            (le_trans (by norm_num) two53_le_maxFin)
          exact ⟨d, h1, fun _ _ => h2⟩
        · obtain ⟨d, h1, _⟩ := round_up_fin hq800 (lt_trans (by norm_num) one_lt_maxFin).le isF_maxFin (le_refl _)
          exact ⟨d, h1, fun a b => absurd ⟨a, b⟩ hs⟩
    have hZb : Z.b.val ≠ .pinf ∧ (0 < q → q ≤ 1 / 2 → ∀ d, Z.b.val = .fin d → d ≤ 400) := by
      obtain ⟨d1, e1, b1⟩ := up1
      have hch : Z.b = .dbl (Dbl.mul .up (.fin q) p) ∨ Z.b = .dbl (Dbl.mul .up (.fin q) (.fin y)) := by
        rw [hZ]; show Num.max2 _ _ = _ ∨ Num.max2 _ _ = _
        unfold Num.max2; split_ifs <;> simp
      rcases hch with h | h <;> rw [h]
      · rcases up2 with e2 | ⟨d2, e2, b2⟩ <;> rw [e2] <;> simp only [Num.val]
        · exact ⟨by simp, fun _ _ d hd => by cases hd⟩
        · exact ⟨by simp, fun a b d hd => by cases hd; exact b2 a b⟩
      · rw [e1]; simp only [Num.val]
        exact ⟨by simp, fun a b d hd => by cases hd; exact b1 a b⟩
    have hmem : ∀ x : ℝ, 0 < x → (⟨.classical, xa, xb⟩ : FIv).Mem x → Z.Mem (q * Real.log x) := by
      intro x hx hm
      apply hZmem
      refine ⟨?_, ?_⟩
      · show p.Lower _
        rcases hp with ⟨rfl, _⟩ | ⟨t', y', ht', ht0', rfl, hy1', hy2'⟩
        · trivial
        · have h4 := hm.1
          simp only [ht', Dbl.Lower] at h4
          exact hy1'.trans (Real.log_le_log (by exact_mod_cast ht0') h4)
      · have h4 := hm.2
        simp only [hb, Dbl.Upper] at h4
        exact (Real.log_le_log hx h4).trans hy1
    obtain ⟨Y, hY⟩ := exp_total hexp Z s hZI
    refine ⟨Y, ?_, ?_, ?_⟩
    · unfold expLog
      rw [run_bind_ok hrun, run_bind_ok hZrun]; exact hY
    · intro hq1 hq2
      -- no overflow: the argument is at most 400
      obtain ⟨d, hd⟩ : ∃ d, Z.b.val = .fin d := by
        have := (hmem t (by exact_mod_cast ht) hmt).2
        revert this
        cases e : Z.b.val <;> simp only [Dbl.Upper] <;> intro h
        · exact ⟨_, rfl⟩
        · exact absurd e hZb.1
        · exact h.elim
        · exact h.elim
      obtain ⟨Y', hY', hY'm⟩ := C28_exp_encloses_moderate lm hexp Z s d hZI hd (hZb.2 hq1 hq2 d hd)
      rw [hY] at hY'
      have := congrArg Prod.fst hY'
      simp only [Except.ok.injEq] at this
      subst this
      intro hcon
      have := (hY'm _ (hmem t (by exact_mod_cast ht) hmt)).1
      rw [hcon] at this
      exact this
    · by_cases hno : Y = ⟨.classical, .dbl .pinf, .dbl .pinf⟩
      · exact Or.inl hno
      right
      obtain ⟨_, h1, h2, h3, _⟩ := exp_bounds hexp hZI hY hno hZb.1
      have main : ∀ x : ℝ, 0 < x → (⟨.classical, xa, xb⟩ : FIv).Mem x → Y.Mem (x ^ (q : ℝ)) := by
        intro x hx hm
        have h := hmem x hx hm
        rw [Real.rpow_def_of_pos hx, mul_comm]
        exact ⟨h1 _ h.1, h2 _ h.2⟩
      intro x hx hm
      rcases hx.lt_or_eq with hx | hx
      · exact main x hx hm
      · subst hx
        -- the member zero: the lower endpoint is not positive, so its logarithm is minus infinity
        have hpn : p = .ninf := by
          rcases hp with ⟨h, _⟩ | ⟨t', y', ht', ht0', _⟩
          · exact h
          · have h4 := hm.1
            simp only [ht', Dbl.Lower] at h4
            have : t' ≤ 0 := by exact_mod_cast h4
            exact absurd this (not_le.mpr ht0')
        have hs : 0 < q := by
          rcases hsign with hs | ⟨hs, p', hp', hp0'⟩
          · exact hs
          · have h4 := hm.1
            simp only [hp', Dbl.Lower] at h4
            have : p' ≤ 0 := by exact_mod_cast h4
            exact absurd this (not_le.mpr hp0')
        have hZa : Z.a.val = .ninf := by
          rw [hZ, hpn]
          show (Num.min2 _ _).val = _
          have e : Dbl.mul .down (.fin q) .ninf = .ninf := by simp [Dbl.mul, Dbl.infTimes, hq0, hs]
          rw [e]
          have : ∀ d, d ≠ Dbl.nan → (Num.min2 (.dbl .ninf) (.dbl d)).val = .ninf := by
            intro d hd; cases d <;> simp [Num.min2, Num.lt, Num.val, Dbl.lt]
          exact this _ (show round .down (q * y) ≠ .nan from fun h => round_ok .down (q * y) h)
        rw [Real.zero_rpow (by exact_mod_cast hq0)]
        refine ⟨h3 hZa 0 (le_refl _), ?_⟩
        have hup := (main t (by exact_mod_cast ht) hmt).2
        have hpos : (0 : ℝ) ≤ (t : ℝ) ^ (q : ℝ) := Real.rpow_nonneg (by exact_mod_cast ht.le) _
        generalize Y.b.val = d at *
        cases d <;> simp only [Dbl.Upper] at hup ⊢
        exact hpos.trans hup
  · -- the upper endpoint is zero
    subst ht
    have hxz : x₀ = 0 := by
      have := hm₀.2
      simp only [hb, Dbl.Upper] at this
      refine le_antisymm (by simpa using this) hx₀
    subst hxz
    have hs : 0 < q := by
      rcases hsign with hs | ⟨hs, p', hp', hp0'⟩
      · exact hs
      · have h4 := hm₀.1
        simp only [hp', Dbl.Lower] at h4
        have : p' ≤ 0 := by exact_mod_cast h4
        exact absurd this (not_le.mpr hp0')
    have hle : xa.le xb = true := hm₀.le
    have hmxv : (xa.max2 (.dbl (.fin 0))).val = .fin 0 := by
      rw [max2_zero]
      split_ifs with h
      · rfl
      · have h4 := hm₀.1
        simp only at h4
        unfold Num.lt at h
        cases e : xa.val with
        | fin p =>
          rw [e] at h4 h
          simp only [Dbl.Lower] at h4
          simp only [Num.val, Dbl.lt, decide_eq_true_eq, not_lt] at h
          have : p ≤ 0 := by exact_mod_cast h4
          rw [le_antisymm this h]
        | ninf => rw [e] at h; simp [Num.val, Dbl.lt] at h
        | pinf => rw [e] at h4; exact h4.elim
        | nan => rw [e] at h4; exact h4.elim
    have hmx : (xa.max2 (.dbl (.fin 0))).le xb = true := by
      unfold Num.le; rw [hmxv, hb]; simp [Dbl.le]
    have hrun : FIv.log lm.log ⟨.classical, xa, xb⟩ s = (.ok ⟨.classical, .dbl .ninf, .dbl .ninf⟩, s) :=
      log_run (v := .dbl .ninf) (w := .dbl .ninf) hle hmx (by rw [if_pos hmxv]) (if_pos hb) trivial trivial
    have em : ∀ m, Dbl.mul m (.fin q) .ninf = .ninf := by
      intro m; simp [Dbl.mul, Dbl.infTimes, hq0, hs]
    have hZrun : FIv.rmul c ⟨.classical, .dbl .ninf, .dbl .ninf⟩ s = (.ok ⟨.classical, .dbl .ninf, .dbl .ninf⟩, s) := by
      rw [rmul_run c q hq hc53, em, em]; rfl
    refine ⟨⟨.classical, .dbl (nextDown (.fin 0)), .dbl (nextUp (.fin 0))⟩, ?_, ?_, Or.inr ?_⟩
    · unfold expLog
      rw [run_bind_ok hrun, run_bind_ok hZrun]
      exact exp_run (by rw [hexp.ninf]; rfl) (by rw [hexp.ninf]; rfl)
    · intro _ _ h
      have := congrArg (fun Z : FIv => Z.a) h
      simp only [Num.dbl.injEq] at this
      rw [nextDown_small (by simp)] at this
      cases this
    · intro x hx hm
      have : x = 0 := by
        have := hm.2
        simp only [hb, Dbl.Upper] at this
        exact le_antisymm (by simpa using this) hx
      subst this
      rw [Real.zero_rpow (by exact_mod_cast hq0)]
      exact ⟨nextDown_lower_zero (le_refl _), nextUp_upper_zero (le_refl _)⟩

/-- C28 for `sqrt`: for every interval bounded above (with double endpoints), in every rounding mode, the call succeeds
and the result contains the square root of every nonnegative member.  The overflow answer cannot occur. -/
theorem C28_sqrt_encloses (lm : Libm) (hexp : ExpOK lm.exp) (hlog : LogOK lm.log) (X : FIv) (s : Mode)
    (cX : X.cls = .classical) (hI : X.a.IntsLe (2 ^ 53) ∧ X.b.IntsLe (2 ^ 53))
    (t : ℚ) (hb : X.b.val = .fin t) (htM : t ≤ maxFin) (haF : ∀ p, X.a.val = .fin p → IsF p) (x : ℝ) (hx : 0 ≤ x)
    (hm : X.Mem x) : ∃ Y, FIv.sqrt lm X s = (.ok Y, s) ∧ Y.Mem (Real.sqrt x) := by
  obtain ⟨Y, h1, h2, h3⟩ := expLog_encloses lm hexp hlog X s cX hI t hb htM haF (.dbl (.fin (1 / 2))) (1 / 2) trivial
    rfl (by rw [abs_of_pos (by norm_num)]; exact le_trans (by norm_num) two53_le_maxFin) (Or.inl (by norm_num)) x hx hm
  refine ⟨Y, h1, ?_⟩
  rcases h3 with h | h
  · exact absurd h (h2 (by norm_num) (le_refl _))
  · have := h x hx hm
    rw [Real.sqrt_eq_rpow]
    norm_num at this ⊢
    exact this

/-- C71 for exponents that are not natural numbers: for a nonnegative interval bounded above and an exponent `q` that
is positive, or negative with zero outside the interval, the call succeeds; unless it returns the overflow answer
`[inf, inf]`, the result contains `x ** q` for every member. -/
theorem C71_real_power_encloses_partial (lm : Libm) (hexp : ExpOK lm.exp) (hlog : LogOK lm.log) (X : FIv) (s : Mode)
    (cX : X.cls = .classical) (hI : X.a.IntsLe (2 ^ 53) ∧ X.b.IntsLe (2 ^ 53))
    (p t : ℚ) (ha : X.a.val = .fin p) (hp0 : 0 ≤ p) (hpt : p ≤ t) (hb : X.b.val = .fin t) (htM : t ≤ maxFin)
    (haF : IsF p) (c : Num) (q : ℚ) (hc : c.IntsLe (2 ^ 26)) (hq : c.val = .fin q) (hqM : |q| * 800 ≤ maxFin)
    (hsign : 0 < q ∨ (q < 0 ∧ 0 < p)) :
    ∃ Y, FIv.powReal lm X c s = (.ok Y, s) ∧
      (Y = ⟨.classical, .dbl .pinf, .dbl .pinf⟩ ∨ ∀ x : ℝ, X.Mem x → Y.Mem (x ^ (q : ℝ))) := by
  have hm0 : X.Mem (p : ℝ) := by
    refine ⟨?_, ?_⟩
    · rw [ha]; exact le_refl _
    · rw [hb]; show (p : ℝ) ≤ t; exact_mod_cast hpt
  obtain ⟨Y, h1, _, h3⟩ := expLog_encloses lm hexp hlog X s cX hI t hb htM
    (fun p' hp' => by rw [ha] at hp'; cases hp'; exact haF) c q hc hq hqM
    (hsign.imp id fun h => ⟨h.1, p, ha, h.2⟩) p (by exact_mod_cast hp0) hm0
  refine ⟨Y, ?_, ?_⟩
  · unfold FIv.powReal
    have e1 : (Num.int 0).le X.a = true := by
      unfold Num.le; rw [ha]; simpa [Num.val, Dbl.le] using hp0
    have e2 : (Num.int 0).le X.b = true := by
      unfold Num.le; rw [hb]; simpa [Num.val, Dbl.le] using hp0.trans hpt
    rw [e1, e2]
    exact h1
  · refine h3.imp id fun h x hx => h x ?_ hx
    have := hx.1
    rw [ha] at this
    exact le_trans (by exact_mod_cast hp0) this

/-- The error branch of `**`: a base with a negative endpoint and an exponent that is not a natural number. -/
theorem C06_real_power_error (lm : Libm) (X : FIv) (s : Mode) (c : Num)
    (h : X.a.val.lt (.fin 0) = true ∨ X.b.val.lt (.fin 0) = true) :
    FIv.powReal lm X c s = (.error .valueError, s) := by
  unfold FIv.powReal
  have key : ∀ n : Num, n.val.lt (.fin 0) = true → (Num.int 0).le n = false := by
    intro n hn
    unfold Num.le
    cases e : n.val <;> rw [e] at hn <;> simp_all [Num.val, Dbl.lt, Dbl.le]
  rcases h with h | h
  · rw [key _ h]; rfl
  · rw [key _ h, Bool.and_false]; rfl

/-- The full statement of C71 for real exponents. -/
def C71_real_power_statement (lm : Libm) : Prop :=
  ∀ (X : FIv) (s : Mode) (p t q : ℚ) (c : Num), X.cls = .classical → X.a.val = .fin p → X.b.val = .fin t → 0 ≤ p →
    X.a.IntsLe (2 ^ 53) → X.b.IntsLe (2 ^ 53) → c.val = .fin q → c.IntsLe (2 ^ 26) →
    ∀ x : ℝ, 0 < x → X.Mem x → ∃ Y, FIv.powReal lm X c s = (.ok Y, s) ∧ Y.Mem (x ^ (q : ℝ))

/-- C71 is false for negative exponents when the base touches zero: `[0, 1] ** (-1)` is bounded by the largest double,
although `1 / x` is unbounded on it. -/
theorem C71_negative_power_false (lm : Libm) (hexp : ExpOK lm.exp) (hlog : LogOK lm.log) :
    ¬ C71_real_power_statement lm := by
  intro h
  obtain ⟨Y, hY, hm⟩ := h ⟨.classical, .int 0, .int 1⟩ .nearest 0 1 (-1) (.int (-1)) rfl (by simp [Num.val])
    (by simp [Num.val]) (le_refl _) (by norm_num [Num.IntsLe]) (by norm_num [Num.IntsLe]) (by simp [Num.val])
    (by norm_num [Num.IntsLe]) (1 / 2 ^ 2000) (by positivity)
    ⟨by simp [Num.val, Dbl.Lower], by
      simp only [Num.val, Dbl.Upper]; push_cast
      rw [div_le_one (by positivity)]; exact one_le_pow₀ (by norm_num)⟩
  have hmem : (⟨.classical, .int 0, .int 1⟩ : FIv).Mem (1 : ℝ) :=
    ⟨by simp [Num.val, Dbl.Lower], by simp [Num.val, Dbl.Upper]⟩
  obtain ⟨p, r, hrun, hp, hr⟩ := log_bounds hlog (s := .nearest) (X := ⟨.classical, .int 0, .int 1⟩)
    ⟨by norm_num [Num.IntsLe], by norm_num [Num.IntsLe]⟩ (by norm_num) hmem
  rcases hp with ⟨rfl, _⟩ | ⟨t, y, h1, h2, _⟩
  swap
  · simp only [Num.val, Dbl.fin.injEq] at h1
    rw [← h1] at h2; norm_num at h2
  rcases hr with ⟨_, h1⟩ | ⟨t, y, h1, h2, rfl, hy⟩
  · simp [Num.val] at h1
  have hZrun := rmul_run (.int (-1)) (-1) (by simp [Num.val]) (by norm_num [Num.IntsLe]) .ninf (.fin y) .nearest
  have em : ∀ m, Dbl.mul m (.fin (-1)) .ninf = .pinf := by intro m; norm_num [Dbl.mul, Dbl.infTimes]
  rw [em, em] at hZrun
  have eb : (Num.dbl .pinf).max2 (.dbl (Dbl.mul .up (.fin (-1)) (.fin y))) = .dbl .pinf := by
    have : ∀ d, (Num.dbl .pinf).max2 (.dbl d) = .dbl .pinf := by
      intro d; cases d <;> simp [Num.max2, Num.lt, Num.val, Dbl.lt]
    exact this _
  rw [eb] at hZrun
  set Z : FIv := ⟨.classical, (Num.dbl .pinf).min2 (.dbl (Dbl.mul .down (.fin (-1)) (.fin y))), .dbl .pinf⟩ with hZ
  have hYrun : FIv.exp lm Z .nearest = (.ok Y, .nearest) := by
    rw [← hY]
    unfold FIv.powReal
    have e1 : ((Num.int 0).le (Num.int 0) && (Num.int 0).le (Num.int 1)) = true := by
      simp [Num.le, Num.val, Dbl.le]
    simp only [e1, if_true]
    rw [run_bind_ok hrun, run_bind_ok hZrun]
  have hle : ∃ q, toD (lm.exp .nearest Z.a) = .ok q := by
    have hza : Z.a = .dbl (round .down (-1 * y)) := by
      rw [hZ]; show Num.min2 _ _ = _
      have : ∀ d, d ≠ Dbl.nan → d ≠ .pinf → (Num.dbl .pinf).min2 (.dbl d) = .dbl d := by
        intro d h1 h2; cases d <;> simp_all [Num.min2, Num.lt, Num.val, Dbl.lt]
      refine this _ (show round .down (-1 * y) ≠ .nan from fun h => round_ok .down (-1 * y) h) ?_
      show round .down _ ≠ _
      simp only [round]; split_ifs <;> simp
    rw [hza]
    cases e : round .down (-1 * y) with
    | fin d =>
      rcases hexp.fin .nearest (.dbl (.fin d)) d trivial rfl with ⟨y', h1, _⟩ | ⟨_, h4⟩
      · rw [h1]; exact ⟨_, rfl⟩
      · exfalso
        have hd : d ≤ 0 := by
          simp only [round] at e
          have hy0 : 0 ≤ y := by
            have : t = 1 := by simp only [Num.val, Dbl.fin.injEq] at h1; rw [← h1]; norm_num
            rw [this] at hy
            simpa using hy.1
          have hfl := floorTo_le (-1 * y)
          split_ifs at e with e1 e2
          · have := one_lt_maxFin; linarith
          · cases e; linarith
        linarith
    | ninf => rw [hexp.ninf]; exact ⟨_, rfl⟩
    | pinf => rw [hexp.pinf]; exact ⟨_, rfl⟩
    | nan => rw [hexp.nan]; exact ⟨_, rfl⟩
  obtain ⟨q, hq⟩ := hle
  rw [exp_run hq (q := .pinf) (by rw [hZ, hexp.pinf]; rfl)] at hYrun
  cases hYrun
  have h5 := hm.2
  simp only [nextUp, Num.val, Dbl.Upper] at h5
  have h6 : ((1 : ℝ) / 2 ^ 2000) ^ (((-1 : ℚ)) : ℝ) = 2 ^ 2000 := by
    push_cast
    rw [Real.rpow_neg_one, one_div, inv_inv]
  rw [h6] at h5
  have h3 : ((maxFin : ℚ) : ℝ) ≤ 2 ^ 1024 := by
    have : (maxFin : ℚ) ≤ 2 ^ 53 * 2 ^ 971 := by
      unfold maxFin
      exact mul_le_mul_of_nonneg_right (by norm_num) (by positivity)
    rw [← pow_add] at this
    exact_mod_cast this
  have h4 : (2 : ℝ) ^ 1024 < 2 ^ 2000 := pow_lt_pow_right₀ (by norm_num) (by norm_num)
  exact absurd (h5.trans h3) (not_le.mpr h4)

end IntvalPy
