import Verif.PropsNaN
import Verif.PropsPowInf
import Verif.PropsElem
import Verif.ModelRuns

/-!
# NaN endpoints in functions of one interval (C120)

`exp`, `log`, `sqrt`, `sin`, `cos`, natural powers, `abs`, `mid`, `rad` and `wid`
(/repo/intvalpy/kernel/interval_arithmetics.pyx:119-145, 196-197, 255-351, 469-478, 620-634).
-/

set_option autoImplicit false
set_option linter.unusedSectionVars false

namespace IntvalPy
open M

/-- C120 for a function of one interval: NaN in, NaN out. -/
def C120_unary (op : FIv → M FIv) : Prop := ∀ X s Z, X.HasNaN → (op X s).1 = .ok Z → Z.HasNaN

/-- A library function returns NaN exactly for NaN (where it returns). -/
def NaNThrough (f : Mode → Num → Except Err Num) : Prop := ∀ m x y, f m x = .ok y → (y.IsNaN ↔ x.IsNaN)

theorem next_nan (d : Dbl) : (nextDown d = .nan ↔ d = .nan) ∧ (nextUp d = .nan ↔ d = .nan) := by
  cases d <;> simp only [nextDown, nextUp] <;> (try split_ifs) <;> simp

theorem not_isNaN_fin (q : ℚ) : ¬ (Num.dbl (.fin q)).IsNaN := by simp [Num.IsNaN]

theorem toD_nan {f : Mode → Num → Except Err Num} (hf : NaNThrough f) {m : Mode} {x : Num} {d : Dbl}
    (h : FIv.toD (f m x) = .ok d) : d = .nan ↔ x.IsNaN := by
  unfold FIv.toD at h
  cases e : f m x with
  | error _ => rw [e] at h; cases h
  | ok y =>
    rw [e] at h
    rw [← hf m x y e, isNaN_val]
    exact (toDbl_val h).1

/-! ## exp, log, sqrt -/

/-- C120 for `exp`: unless the call overflowed and returned `[inf, inf]`, an end of the result is NaN exactly when that
end of the argument is. -/
theorem C120_exp_partial (lm : Libm) (hf : NaNThrough lm.exp) (X : FIv) (s : Mode) (Z : FIv)
    (h : (FIv.exp lm X s).1 = .ok Z) :
    Z = ⟨X.cls, .dbl .pinf, .dbl .pinf⟩ ∨ ((Z.a.IsNaN ↔ X.a.IsNaN) ∧ (Z.b.IsNaN ↔ X.b.IsNaN)) := by
  have hb : Ret (do
      let p ← M.op fun m => FIv.toD (lm.exp m X.a)
      let q ← M.op fun m => FIv.toD (lm.exp m X.b)
      return (⟨X.cls, .dbl (nextDown p), .dbl (nextUp q)⟩ : FIv))
      (fun Z => (Z.a.IsNaN ↔ X.a.IsNaN) ∧ (Z.b.IsNaN ↔ X.b.IsNaN)) := by
    refine Ret.bind (P := fun d => d = .nan ↔ X.a.IsNaN) (Ret.op fun m v hv => toD_nan hf hv) fun p hp =>
      Ret.bind (P := fun d => d = .nan ↔ X.b.IsNaN) (Ret.op fun m v hv => toD_nan hf hv) fun q hq => Ret.pure ⟨?_, ?_⟩
    · rw [← hp, ← (next_nan p).1, Num.IsNaN, Num.dbl.injEq]
    · rw [← hq, ← (next_nan q).2, Num.IsNaN, Num.dbl.injEq]
  unfold FIv.exp FIv.catchOverflow at h
  split at h
  · cases h; exact Or.inl rfl
  · exact Or.inr (hb s Z h)

/-- C120 for `log`, whatever the library function does: a NaN lower end, or any NaN end of an interval of the classical
class, makes both ends NaN. -/
theorem C120_log_partial (lg : Mode → Num → Except Err Num) (X : FIv) (s : Mode)
    (h : X.a.IsNaN ∨ (X.cls = .classical ∧ X.b.IsNaN)) :
    FIv.log lg X s = (.ok ⟨X.cls, .dbl .nan, .dbl .nan⟩, s) := by
  have key : ((X.proLo.max2 (.dbl (.fin 0))).le X.proHi) = false := by
    rcases h with h | ⟨hc, h⟩
    · have h1 : X.proLo.IsNaN := by
        unfold FIv.proLo
        cases X.cls
        · exact h
        · exact (min2_isNaN _ _).2 h
      rw [Num.le, isNaN_val.1 ((max2_isNaN _ _).2 h1)]
      rfl
    · have : X.proHi = X.b := by unfold FIv.proHi; rw [hc]
      rw [Num.le, this, isNaN_val.1 h]
      cases (X.proLo.max2 (.dbl (.fin 0))).val <;> rfl
  unfold FIv.log
  simp only [key, Bool.false_eq_true, if_false]
  rfl

/-- C120 for `sqrt` of an interval of the classical class: a NaN end makes both ends NaN. -/
theorem C120_sqrt_partial (lm : Libm) (hexp : ∀ m, lm.exp m (.dbl .nan) = .ok (.dbl .nan)) (X : FIv)
    (hc : X.cls = .classical) (s : Mode) (h : X.HasNaN) :
    FIv.sqrt lm X s = (.ok ⟨.classical, .dbl .nan, .dbl .nan⟩, s) := by
  have h1 : FIv.log lm.log X s = (.ok ⟨.classical, .dbl .nan, .dbl .nan⟩, s) :=
    hc ▸ C120_log_partial lm.log X s (h.imp id fun h => ⟨hc, h⟩)
  unfold FIv.sqrt
  rw [run_bind, h1]
  simp only
  rw [run_bind, rmul_run (.dbl (.fin (1 / 2))) (1 / 2) rfl trivial]
  show FIv.exp lm ⟨.classical, .dbl .nan, .dbl .nan⟩ s = _
  unfold FIv.exp FIv.catchOverflow
  simp only [run_bind, M.op, hexp, FIv.toD, Except.bind, Num.toDbl]
  rfl

/-! ## sin, cos -/

theorem ret_turns_nan (sh : FIv.Shift) {v : Num} (h : v.IsNaN) : Ret (FIv.turns sh v) (fun d => d = .nan) := by
  have h1 : Ret (FIv.shifted sh v) Num.IsNaN := by
    cases sh with
    | plusHalf => exact ret_nadd' (Or.inl h)
    | minusHalf => exact ret_nsub (Or.inl h)
    | minusPi => exact ret_nsub (Or.inl h)
    | none => exact Ret.pure h
  unfold FIv.turns
  refine Ret.bind h1 fun t ht => Ret.bind (ret_ndiv' (Or.inl ht)) fun q hq => Ret.op fun _ d hd => ?_
  exact (toDbl_val hd).1.2 (isNaN_val.1 hq)

theorem ret_extremum_nan (sh : FIv.Shift) {lo hi : Num} :
    Ret (FIv.extremumInside sh lo hi) (fun b => lo.IsNaN ∨ hi.IsNaN → b = false) := by
  unfold FIv.extremumInside
  refine Ret.bind (P := fun d => lo.IsNaN → d = .nan) (fun s d hd h => ret_turns_nan sh h s d hd) fun p hp =>
    Ret.bind (P := fun d => hi.IsNaN → d = .nan) (fun s d hd h => ret_turns_nan sh h s d hd) fun q hq => Ret.pure ?_
  rintro (h | h)
  · rw [hp h]; rfl
  · rw [hq h]
    cases p <;> rfl

theorem ret_trigEnd_nan (sh : FIv.Shift) {lo hi v : Num} (ext : ℤ) {next : Dbl → Dbl} (hn : ∀ d, next d = .nan ↔ d = .nan)
    (hv : v.IsNaN → lo.IsNaN) : Ret (FIv.trigEnd sh lo hi ext next v) (fun z => z.IsNaN ↔ v.IsNaN) := by
  unfold FIv.trigEnd
  refine Ret.bind (ret_extremum_nan sh) fun b hb => ?_
  split_ifs with h
  · refine Ret.pure (iff_of_false (not_isNaN_fin _) fun hv' => ?_)
    have := hb (Or.inl (hv hv'))
    rw [this] at h
    cases h
  · refine Ret.bind (P := fun d => d = .nan ↔ v.IsNaN) (Ret.op fun _ d hd => ?_) fun d hd => Ret.pure ?_
    · rw [isNaN_val]; exact (toDbl_val hd).1
    · rw [← hd, ← hn d, Num.IsNaN, Num.dbl.injEq]

/-- C120 for `sin` and `cos`: the result has a NaN end exactly when the lower end of the argument is NaN, and then both
ends are. -/
theorem trig_nan (f : Mode → Num → Except Err Num) (hf : NaNThrough f) (a b : FIv.Shift) (X : FIv) (s : Mode) (Z : FIv)
    (h : (FIv.trig f a b X s).1 = .ok Z) : (Z.a.IsNaN ↔ X.a.IsNaN) ∧ (Z.b.IsNaN ↔ X.a.IsNaN) := by
  have hlo : X.proLo.IsNaN ↔ X.a.IsNaN := by
    unfold FIv.proLo
    cases X.cls
    · exact Iff.rfl
    · exact min2_isNaN _ _
  have key : Ret (FIv.trig f a b X) (fun Z => (Z.a.IsNaN ↔ X.a.IsNaN) ∧ (Z.b.IsNaN ↔ X.a.IsNaN)) := by
    unfold FIv.trig
    refine Ret.bind (P := fun v => v.IsNaN ↔ X.proLo.IsNaN) (Ret.op fun m v hv => hf m _ v hv) fun p hp =>
      Ret.bind (Ret.triv _) fun q _ => ?_
    have h1 : (p.min2 q).IsNaN ↔ X.proLo.IsNaN := (min2_isNaN p q).trans hp
    have h2 : (p.max2 q).IsNaN ↔ X.proLo.IsNaN := (max2_isNaN p q).trans hp
    split_ifs
    · exact Ret.bind (Ret.within (ret_trigEnd_nan _ _ (fun d => (next_nan d).1) h1.1)) fun i hi =>
        Ret.bind (Ret.within (ret_trigEnd_nan _ _ (fun d => (next_nan d).2) h2.1)) fun j hj =>
          Ret.pure ⟨hi.trans (h1.trans hlo), hj.trans (h2.trans hlo)⟩
    · exact Ret.bind (Ret.within (ret_trigEnd_nan _ _ (fun d => (next_nan d).1) h2.1)) fun i hi =>
        Ret.bind (Ret.within (ret_trigEnd_nan _ _ (fun d => (next_nan d).2) h1.1)) fun j hj =>
          Ret.pure ⟨hi.trans (h2.trans hlo), hj.trans (h1.trans hlo)⟩
  exact key s Z h

theorem C120_trig_iff (lm : Libm) (hs : NaNThrough lm.sin) (hc : NaNThrough lm.cos) (X : FIv) (s : Mode) (Z : FIv)
    (h : (FIv.sin lm X s).1 = .ok Z ∨ (FIv.cos lm X s).1 = .ok Z) :
    (Z.a.IsNaN ↔ X.a.IsNaN) ∧ (Z.b.IsNaN ↔ X.a.IsNaN) :=
  h.elim (trig_nan _ hs _ _ X s Z) (trig_nan _ hc _ _ X s Z)

/-! ## Powers -/

/-- C120 for natural powers of the classical class (exponent positive): NaN exactly when the lower end is NaN, and then
both ends. -/
theorem C120_pow_iff (pw : Mode → Num → ℕ → Except Err Num) (n : ℕ) (hf : NaNThrough fun m x => pw m x n) (X : FIv)
    (s : Mode) (Z : FIv) (h : (FIv.powC pw X n s).1 = .ok Z) : (Z.a.IsNaN ↔ X.a.IsNaN) ∧ (Z.b.IsNaN ↔ X.a.IsNaN) := by
  have key : Ret (FIv.powC pw X n) (fun Z => (Z.a.IsNaN ↔ X.a.IsNaN) ∧ (Z.b.IsNaN ↔ X.a.IsNaN)) := by
    unfold FIv.powC
    refine Ret.bind (P := fun v => v.IsNaN ↔ X.a.IsNaN) (Ret.within ?_) fun p hp =>
      Ret.bind (P := fun v => v.IsNaN ↔ X.a.IsNaN) (Ret.within ?_) fun q hq => ?_
    · exact Ret.bind (P := fun v => v.IsNaN ↔ X.a.IsNaN) (Ret.op fun m v hv => hf m _ v hv) fun p hp =>
        Ret.bind (Ret.triv _) fun q _ => Ret.pure ((min2_isNaN p q).trans hp)
    · exact Ret.bind (P := fun v => v.IsNaN ↔ X.a.IsNaN) (Ret.op fun m v hv => hf m _ v hv) fun p hp =>
        Ret.bind (Ret.triv _) fun q _ => Ret.pure ((max2_isNaN p q).trans hp)
    · split_ifs with h0
      · refine Ret.pure ⟨iff_of_false (not_isNaN_fin _) fun hn => ?_, hq⟩
        have := h0.2
        rw [FIv.containsNum, Num.le, isNaN_val.1 hn] at this
        simp [Dbl.le] at this
      · exact Ret.pure ⟨hp, hq⟩
  exact key s Z h

/-- C120 for natural powers of the Kaucher class: a NaN end is kept, except the upper one next to a lower end zero. -/
theorem C120_pow_kaucher (pw : Mode → Num → ℕ → Except Err Num) (n : ℕ) (hf : NaNThrough fun m x => pw m x n) (X : FIv)
    (hK : X.cls = .kaucher) (s : Mode) (Z : FIv) (h : (FIv.powK pw X n s).1 = .ok Z) (hn : X.HasNaN) :
    Z.HasNaN ∨ (n % 2 = 0 ∧ X.a.val = .fin 0 ∧ X.b.IsNaN) := by
  have key : Ret (FIv.powK pw X n) (fun Z => Z.HasNaN ∨ (n % 2 = 0 ∧ X.a.val = .fin 0 ∧ X.b.IsNaN)) := by
    unfold FIv.powK
    refine Ret.bind (P := fun v => v.IsNaN ↔ X.a.IsNaN) (Ret.within (Ret.store_iff (Ret.op fun m v hv => hf m _ v hv)))
      fun p hp => Ret.bind (P := fun v => v.IsNaN ↔ X.b.IsNaN)
        (Ret.within (Ret.store_iff (Ret.op fun m v hv => hf m _ v hv))) fun q hq => ?_
    have hno : X.containsNum (.int 0) = false := by
      rw [FIv.containsNum]
      rcases hn with hn | hn
      · rw [Num.le, isNaN_val.1 hn]; simp [Dbl.le]
      · have : (Num.int 0).le X.b = false := by rw [Num.le, isNaN_val.1 hn]; rfl
        rw [this, Bool.and_false]
    split_ifs with h0 h1 h2
    · rw [hno] at h0; cases h0.2
    · refine Ret.pure (Or.inr ⟨h1.1, ?_⟩)
      have hc := h1.2
      by_cases ha : X.a.IsNaN
      · have : (X.a.min2 X.b).IsNaN := (min2_isNaN _ _).2 ha
        simp only [FIv.containsNum, FIv.proLo, hK, Num.le, isNaN_val.1 this] at hc
        simp [Dbl.le] at hc
      · have hb := hn.resolve_left ha
        refine ⟨?_, hb⟩
        have l1 : X.a.min2 X.b = X.a := by
          unfold Num.min2 Num.lt; rw [isNaN_val.1 hb, lt_nan_left]; rfl
        have l2 : X.a.max2 X.b = X.a := by
          unfold Num.max2 Num.lt; rw [isNaN_val.1 hb, lt_nan_right]; rfl
        simp only [FIv.containsNum, FIv.proLo, FIv.proHi, hK, l1, l2, Num.le, Bool.and_eq_true] at hc
        cases e : X.a.val <;> rw [e] at hc <;> simp_all [Num.val, Dbl.le]
        exact le_antisymm hc.1 hc.2
    · exact Ret.pure (Or.inl (hn.imp hp.2 hq.2))
    · exact Ret.pure (Or.inl (hn.imp hp.2 hq.2))
  exact key s Z h

/-! ## abs, mid, rad, wid -/

theorem fabs_nan {x : Num} {d : Dbl} (h : x.fabs = .ok d) : d = .nan ↔ x.IsNaN := by
  unfold Num.fabs at h
  rw [isNaN_val]
  cases e : x.toDbl with
  | error _ => rw [e] at h; cases h
  | ok c =>
    rw [e] at h
    rw [← (toDbl_val e).1]
    cases c <;> cases h <;> simp

/-- C120 for `abs`: both ends are NaN exactly when the lower end is. -/
theorem C120_abs_iff (X Z : FIv) (h : X.absN = .ok Z) : (Z.a.IsNaN ↔ X.a.IsNaN) ∧ (Z.b.IsNaN ↔ X.a.IsNaN) := by
  unfold FIv.absN at h
  cases e1 : X.migN with
  | error _ => rw [e1] at h; cases h
  | ok p =>
    cases e2 : X.magN with
    | error _ => rw [e1, e2] at h; cases h
    | ok q =>
      rw [e1, e2] at h
      cases h
      unfold FIv.magN at e2
      unfold FIv.migN at e1
      cases f1 : X.a.fabs with
      | error _ => rw [f1] at e2; cases e2
      | ok u =>
        cases f2 : X.b.fabs with
        | error _ => rw [f1, f2] at e2; cases e2
        | ok v =>
          rw [f1, f2] at e2 e1
          cases e2
          have hu : (Num.dbl u).IsNaN ↔ X.a.IsNaN := by rw [← fabs_nan f1, Num.IsNaN, Num.dbl.injEq]
          refine ⟨?_, (max2_isNaN _ _).trans hu⟩
          split_ifs at e1 with h0
          · cases e1
            refine iff_of_false (not_isNaN_fin _) fun hn => ?_
            rw [FIv.containsNum, Num.le, isNaN_val.1 hn] at h0
            simp [Dbl.le] at h0
          · cases e1
            exact (min2_isNaN _ _).trans hu

/-- C120 for `wid`, `rad`, `mid`: with a NaN end they are NaN. -/
theorem C120_mid (m : Mode) (X : FIv) (h : X.HasNaN) (w : Num) :
    (X.widN m = .ok w → w.IsNaN) ∧ (X.radN m = .ok w → w.IsNaN) ∧ (X.midN m = .ok w → w.IsNaN) := by
  have h1 : ∀ w, X.widN m = .ok w → w.IsNaN := fun w hw => sub_nan hw h.symm
  have h2 : ∀ v w, v.IsNaN → Num.mul m FIv.half v = .ok w → w.IsNaN := fun v w hv hw =>
    (mul_nan hw).2 (Or.inr (Or.inl (isNaN_val.1 hv)))
  refine ⟨h1 w, fun hw => ?_, fun hw => ?_⟩
  · unfold FIv.radN at hw
    cases e : X.widN m with
    | error _ => rw [e] at hw; cases hw
    | ok v => rw [e] at hw; exact h2 v w (h1 v e) hw
  · unfold FIv.midN at hw
    cases e : Num.add m X.b X.a with
    | error _ => rw [e] at hw; cases hw
    | ok v =>
      rw [e] at hw
      refine h2 v w ((add_nan e).2 ?_) hw
      rcases h with h | h
      · exact Or.inr (Or.inl (isNaN_val.1 h))
      · exact Or.inl (isNaN_val.1 h)

/-! ## Where NaN is lost -/

/-- A library that returns NaN for NaN, overflows from 1000 on and is constant otherwise; only used for the witnesses
below. -/
def flatLibm : Libm where
  exp _ x := if x = .dbl .nan then .ok x else if (Num.int 1000).le x then .error .overflowError else .ok (.dbl (.fin 1))
  log _ x := if x = .dbl .nan then .ok x else .ok (.dbl (.fin 0))
  sin _ x := if x = .dbl .nan then .ok x else .ok (.dbl (.fin 0))
  cos _ x := if x = .dbl .nan then .ok x else .ok (.dbl (.fin 1))

theorem flatLibm_nan : NaNThrough flatLibm.exp ∧ NaNThrough flatLibm.log ∧ NaNThrough flatLibm.sin ∧
    NaNThrough flatLibm.cos := by
  refine ⟨?_, ?_, ?_, ?_⟩ <;> intro m x y h <;> simp only [flatLibm] at h <;> (split_ifs at h) <;> cases h <;>
    simp_all [Num.IsNaN]

/-- C120 is false for the functions of one interval, also with a library that treats NaN as it should: `exp` of
`[nan, 1000]` is `[inf, inf]`, `log` of the improper `[2, nan]` and `sin`, `cos`, the square and the absolute value of
`[1, nan]` are intervals of numbers. -/
theorem C120_unary_false : ¬ C120_unary (FIv.exp flatLibm) ∧ ¬ C120_unary (FIv.log flatLibm.log) ∧
    ¬ C120_unary (FIv.sin flatLibm) ∧ ¬ C120_unary (FIv.cos flatLibm) ∧ ¬ C120_unary (fun X => FIv.powC ieeePow X 2) ∧
    (⟨.classical, .dbl (.fin 1), .dbl .nan⟩ : FIv).absN = .ok ⟨.classical, .dbl (.fin 1), .dbl (.fin 1)⟩ := by
  have key : ∀ (op : FIv → M FIv) (X Z : FIv), X.HasNaN → (op X .nearest).1 = .ok Z → ¬ Z.HasNaN → ¬ C120_unary op :=
    fun op X Z h1 h2 h3 h => h3 (h X .nearest Z h1 h2)
  refine ⟨key _ ⟨.classical, .dbl .nan, .dbl (.fin 1000)⟩ ⟨.classical, .dbl .pinf, .dbl .pinf⟩ (Or.inl rfl)
      (by decide +kernel) (by simp [FIv.HasNaN, Num.IsNaN]),
    key _ ⟨.kaucher, .dbl (.fin 2), .dbl .nan⟩ ⟨.kaucher, .dbl (.fin 0), .dbl (.fin 0)⟩ (Or.inr rfl)
      (by decide +kernel) (by simp [FIv.HasNaN, Num.IsNaN]),
    key _ ⟨.classical, .dbl (.fin 1), .dbl .nan⟩ ⟨.classical, .dbl (nextDown (.fin 0)), .dbl (nextUp (.fin 0))⟩ (Or.inr rfl)
      (by decide +kernel) (by simp [FIv.HasNaN, Num.IsNaN, (next_nan _).1, (next_nan _).2]),
    key _ ⟨.classical, .dbl (.fin 1), .dbl .nan⟩ ⟨.classical, .dbl (nextDown (.fin 1)), .dbl (nextUp (.fin 1))⟩ (Or.inr rfl)
      (by decide +kernel) (by simp [FIv.HasNaN, Num.IsNaN, (next_nan _).1, (next_nan _).2]),
    key _ ⟨.classical, .dbl (.fin 1), .dbl .nan⟩ ⟨.classical, .dbl (.fin 1), .dbl (.fin 1)⟩ (Or.inr rfl)
      (by decide +kernel) (by simp [FIv.HasNaN, Num.IsNaN]),
    by decide +kernel⟩

/-- The hypotheses can be met: NaN lower ends are kept. -/
example : (FIv.sin flatLibm ⟨.classical, .dbl .nan, .dbl (.fin 1)⟩ .nearest).1 = .ok ⟨.classical, .dbl .nan, .dbl .nan⟩ ∧
    (FIv.exp flatLibm ⟨.classical, .dbl (.fin 1), .dbl .nan⟩ .nearest).1 =
      .ok ⟨.classical, .dbl (nextDown (.fin 1)), .dbl .nan⟩ ∧
    (FIv.sqrt flatLibm ⟨.classical, .dbl (.fin 1), .dbl .nan⟩ .nearest).1 = .ok ⟨.classical, .dbl .nan, .dbl .nan⟩ ∧
    FIv.midN .nearest ⟨.classical, .dbl (.fin 1), .dbl .nan⟩ = .ok (.dbl .nan) := by decide +kernel

end IntvalPy
