import Verif.PropsUtils
import Verif.PropsFloatWit

/-!
# Endpoints that are not a number (C120)

`Interval(nan, nan)` is what the library's tests use for the empty set, and NaN endpoints also come from data.
-/

set_option autoImplicit false
set_option linter.unusedSectionVars false

namespace IntvalPy

/-- The Python number is the float NaN. -/
def Num.IsNaN (x : Num) : Prop := x = .dbl .nan

/-- An endpoint is NaN. -/
def FIv.HasNaN (X : FIv) : Prop := X.a.IsNaN ∨ X.b.IsNaN

/-- Both endpoints are NaN. -/
def FIv.AllNaN (X : FIv) : Prop := X.a.IsNaN ∧ X.b.IsNaN

/-- IEEE 754: the sum of two extended numbers is not a number. -/
def SumNaN (p q : Dbl) : Prop := p = .nan ∨ q = .nan ∨ (p = .pinf ∧ q = .ninf) ∨ (p = .ninf ∧ q = .pinf)

/-- A finite zero and an infinity. -/
def ZeroInf (p q : Dbl) : Prop := p = .fin 0 ∧ (q = .pinf ∨ q = .ninf)

/-- IEEE 754: the product is not a number. -/
def ProdNaN (p q : Dbl) : Prop := p = .nan ∨ q = .nan ∨ ZeroInf p q ∨ ZeroInf q p

/-- IEEE 754: the quotient by a number that is not zero is not a number. -/
def QuotNaN (p q : Dbl) : Prop := p = .nan ∨ q = .nan ∨ ((p = .pinf ∨ p = .ninf) ∧ (q = .pinf ∨ q = .ninf))

/-- C120: an operation does not lose NaN endpoints: if an operand has one, so has the result. -/
def C120_statement (op : FIv → FIv → M FIv) : Prop :=
  ∀ X Y s Z, X.HasNaN ∨ Y.HasNaN → (op X Y s).1 = .ok Z → Z.HasNaN

/-! ## Numbers -/

theorem round_ne_nan (m : Mode) (x : ℚ) : round m x ≠ .nan := by
  cases m <;> simp only [round] <;> split_ifs <;> simp

theorem toDbl_val {x : Num} {d : Dbl} (h : x.toDbl = .ok d) :
    (d = .nan ↔ x.val = .nan) ∧ (d = .pinf ↔ x.val = .pinf) ∧ (d = .ninf ↔ x.val = .ninf) ∧ (d = .fin 0 ↔ x.val = .fin 0) := by
  cases x with
  | dbl e => cases h; simp [Num.val]
  | int z =>
    simp only [Num.toDbl] at h
    have hz : (z : ℚ) ≠ 0 → (nearTo (z : ℚ) : ℚ) ≠ 0 := by
      intro h0 hn
      have h1 : (1 : ℚ) ≤ |(z : ℚ)| := by
        have : z ≠ 0 := by exact_mod_cast h0
        exact_mod_cast Int.one_le_abs this
      have := nearTo_err (z : ℚ)
      rw [hn, zero_sub, abs_neg] at this
      have e1 : (2 : ℚ) ^ (-53 : ℤ) ≤ 1 / 4 := by norm_num
      have e2 : (2 : ℚ) ^ (-1075 : ℤ) ≤ 1 / 4 := by
        have : (2 : ℚ) ^ (-1075 : ℤ) ≤ 2 ^ (-2 : ℤ) := zpow_le_zpow_right₀ (by norm_num) (by norm_num)
        norm_num at this ⊢
        exact this
      have e3 := mul_le_mul_of_nonneg_right e1 (abs_nonneg (z : ℚ))
      generalize (2 : ℚ) ^ (-1075 : ℤ) = u at *
      generalize (2 : ℚ) ^ (-53 : ℤ) = w at *
      linarith
    cases hr : round .nearest (z : ℚ) with
    | fin q =>
      rw [hr] at h
      cases h
      have hq : q = nearTo (z : ℚ) := by
        simp only [round] at hr
        split_ifs at hr
        exact (Dbl.fin.inj hr).symm
      refine ⟨by simp [Num.val], by simp [Num.val], by simp [Num.val], ?_⟩
      simp only [Num.val, Dbl.fin.injEq]
      constructor
      · intro h0
        by_contra hne
        exact hz hne (hq ▸ h0)
      · intro h0
        rw [hq, h0, nearTo_of_isF isF_zero]
    | pinf => rw [hr] at h; cases h
    | ninf => rw [hr] at h; cases h
    | nan => rw [hr] at h; cases h

theorem isNaN_val {x : Num} : x.IsNaN ↔ x.val = .nan := by
  cases x <;> simp [Num.IsNaN, Num.val]

theorem dbl_add_nan (m : Mode) (p q : Dbl) : Dbl.add m p q = .nan ↔ SumNaN p q := by
  cases p <;> cases q <;> simp [Dbl.add, SumNaN, round_ne_nan]

theorem infTimes_nan (q : ℚ) (b : Bool) : Dbl.infTimes q b = .nan ↔ q = 0 := by
  unfold Dbl.infTimes
  split_ifs <;> simp_all

theorem dbl_mul_nan (m : Mode) (p q : Dbl) : Dbl.mul m p q = .nan ↔ ProdNaN p q := by
  cases p <;> cases q <;> simp [Dbl.mul, ProdNaN, ZeroInf, round_ne_nan, infTimes_nan]

theorem dbl_div_nan {m : Mode} {p q d : Dbl} (h : Dbl.div m p q = .ok d) : d = .nan ↔ QuotNaN p q := by
  cases p <;> cases q <;> simp only [Dbl.div] at h <;> (try split_ifs at h) <;> cases h <;>
    simp [QuotNaN, round_ne_nan, infTimes_nan, *]

theorem viaDbl_ok {f : Dbl → Dbl → Except Err Dbl} {x y z : Num} (h : Num.viaDbl f x y = .ok z) :
    ∃ p q d, x.toDbl = .ok p ∧ y.toDbl = .ok q ∧ f p q = .ok d ∧ z = .dbl d := by
  unfold Num.viaDbl at h
  cases hx : x.toDbl with
  | error e => rw [hx] at h; cases h
  | ok p =>
    cases hy : y.toDbl with
    | error e => rw [hx, hy] at h; cases h
    | ok q =>
      cases hf : f p q with
      | error e => rw [hx, hy] at h; change (f p q >>= _) = _ at h; rw [hf] at h; cases h
      | ok d => rw [hx, hy] at h; change (f p q >>= _) = _ at h; rw [hf] at h; cases h; exact ⟨p, q, d, rfl, rfl, hf, rfl⟩

/-- A sum of Python numbers is NaN exactly when it is so by IEEE 754. -/
theorem add_nan {m : Mode} {x y z : Num} (h : Num.add m x y = .ok z) : z.IsNaN ↔ SumNaN x.val y.val := by
  cases x with
  | int a => cases y with
    | int b => cases h; simp [Num.IsNaN, SumNaN, Num.val]
    | dbl b =>
      obtain ⟨p, q, d, hp, hq, hd, rfl⟩ := viaDbl_ok h
      cases hd
      simp only [Num.IsNaN, Num.dbl.injEq, dbl_add_nan, SumNaN, (toDbl_val hp).1, (toDbl_val hp).2.1, (toDbl_val hp).2.2.1,
        (toDbl_val hq).1, (toDbl_val hq).2.1, (toDbl_val hq).2.2.1]
  | dbl a =>
    obtain ⟨p, q, d, hp, hq, hd, rfl⟩ := viaDbl_ok h
    cases hd
    simp only [Num.IsNaN, Num.dbl.injEq, dbl_add_nan, SumNaN, (toDbl_val hp).1, (toDbl_val hp).2.1, (toDbl_val hp).2.2.1,
      (toDbl_val hq).1, (toDbl_val hq).2.1, (toDbl_val hq).2.2.1]

/-- A difference with NaN is NaN. -/
theorem sub_nan {m : Mode} {x y z : Num} (h : Num.sub m x y = .ok z) (hn : x.IsNaN ∨ y.IsNaN) : z.IsNaN := by
  have key : ∀ p q : Dbl, p = .nan ∨ q = .nan → Dbl.sub m p q = .nan := by
    rintro p q (rfl | rfl)
    · exact (dbl_add_nan _ _ _).2 (Or.inl rfl)
    · exact (dbl_add_nan _ _ _).2 (Or.inr (Or.inl rfl))
  have : ∃ p q d, x.toDbl = .ok p ∧ y.toDbl = .ok q ∧ Except.ok (Dbl.sub m p q) = Except.ok (ε := Err) d ∧ z = .dbl d := by
    rcases hn with rfl | rfl
    · exact viaDbl_ok h
    · cases x <;> exact viaDbl_ok h
  obtain ⟨p, q, d, hp, hq, hd, rfl⟩ := this
  cases hd
  refine congrArg Num.dbl (key p q ?_)
  rcases hn with rfl | rfl
  · left; cases hp; rfl
  · right; cases hq; rfl

/-- A product of Python numbers is NaN exactly when it is so by IEEE 754. -/
theorem mul_nan {m : Mode} {x y z : Num} (h : Num.mul m x y = .ok z) : z.IsNaN ↔ ProdNaN x.val y.val := by
  cases x with
  | int a => cases y with
    | int b => cases h; simp [Num.IsNaN, ProdNaN, ZeroInf, Num.val]
    | dbl b =>
      obtain ⟨p, q, d, hp, hq, hd, rfl⟩ := viaDbl_ok h
      cases hd
      simp only [Num.IsNaN, Num.dbl.injEq, dbl_mul_nan, ProdNaN, ZeroInf, (toDbl_val hp).1, (toDbl_val hp).2.1,
        (toDbl_val hp).2.2.1, (toDbl_val hq).1, (toDbl_val hq).2.1, (toDbl_val hq).2.2.1, (toDbl_val hp).2.2.2,
        (toDbl_val hq).2.2.2]
  | dbl a =>
    obtain ⟨p, q, d, hp, hq, hd, rfl⟩ := viaDbl_ok h
    cases hd
    simp only [Num.IsNaN, Num.dbl.injEq, dbl_mul_nan, ProdNaN, ZeroInf, (toDbl_val hp).1, (toDbl_val hp).2.1,
      (toDbl_val hp).2.2.1, (toDbl_val hq).1, (toDbl_val hq).2.1, (toDbl_val hq).2.2.1, (toDbl_val hp).2.2.2,
      (toDbl_val hq).2.2.2]

/-- A quotient of Python numbers is NaN exactly when it is so by IEEE 754. -/
theorem div_nan {m : Mode} {x y z : Num} (h : Num.div m x y = .ok z) : z.IsNaN ↔ QuotNaN x.val y.val := by
  cases x with
  | int a => cases y with
    | int b =>
      have : z.IsNaN ↔ False := by
        refine ⟨fun hz => ?_, False.elim⟩
        rw [Num.IsNaN] at hz
        subst hz
        simp only [Num.div] at h
        split_ifs at h
        · exact round_ne_nan _ _ (Num.dbl.inj (Except.ok.inj h))
        · cases hr : round .nearest ((a : ℚ) / b) <;> rw [hr] at h <;> cases h
      rw [this]
      simp [QuotNaN, Num.val]
    | dbl b =>
      obtain ⟨p, q, d, hp, hq, hd, rfl⟩ := viaDbl_ok h
      simp only [Num.IsNaN, Num.dbl.injEq, dbl_div_nan hd, QuotNaN, (toDbl_val hp).1, (toDbl_val hp).2.1,
        (toDbl_val hp).2.2.1, (toDbl_val hq).1, (toDbl_val hq).2.1, (toDbl_val hq).2.2.1]
  | dbl a =>
    obtain ⟨p, q, d, hp, hq, hd, rfl⟩ := viaDbl_ok h
    simp only [Num.IsNaN, Num.dbl.injEq, dbl_div_nan hd, QuotNaN, (toDbl_val hp).1, (toDbl_val hp).2.1,
      (toDbl_val hp).2.2.1, (toDbl_val hq).1, (toDbl_val hq).2.1, (toDbl_val hq).2.2.1]

theorem lt_nan_right (d : Dbl) : Dbl.lt d .nan = false := by cases d <;> rfl

theorem lt_nan_left (d : Dbl) : Dbl.lt .nan d = false := by cases d <;> rfl

/-- `min` returns NaN exactly when its first argument is NaN. -/
theorem min2_isNaN (x y : Num) : (x.min2 y).IsNaN ↔ x.IsNaN := by
  unfold Num.min2
  split_ifs with h
  · refine iff_of_false (fun hy => ?_) (fun hx => ?_)
    · rw [Num.lt, isNaN_val.1 hy, lt_nan_left] at h; cases h
    · rw [Num.lt, isNaN_val.1 hx, lt_nan_right] at h; cases h
  · rfl

/-- `max` returns NaN exactly when its first argument is NaN. -/
theorem max2_isNaN (x y : Num) : (x.max2 y).IsNaN ↔ x.IsNaN := by
  unfold Num.max2
  split_ifs with h
  · refine iff_of_false (fun hy => ?_) (fun hx => ?_)
    · rw [Num.lt, isNaN_val.1 hy, lt_nan_right] at h; cases h
    · rw [Num.lt, isNaN_val.1 hx, lt_nan_left] at h; cases h
  · rfl

/-! ## Computations -/

/-- Whatever the computation returns has the property. -/
def M.Ret {α : Type} (x : M α) (P : α → Prop) : Prop := ∀ s v, (x s).1 = .ok v → P v

namespace M.Ret
open M

theorem bind {α β : Type} {x : M α} {f : α → M β} {P : α → Prop} {Q : β → Prop} (hx : Ret x P) (hf : ∀ a, P a → Ret (f a) Q) :
    Ret (x >>= f) Q := by
  intro s v h
  change (match x s with | (.ok a, s') => f a s' | (.error e, s') => (.error e, s')).1 = _ at h
  cases hs : x s with
  | mk r s' =>
    rw [hs] at h
    cases r with
    | error e => cases h
    | ok a => exact hf a (hx s a (by rw [hs])) s' v h

theorem pure {α : Type} {a : α} {P : α → Prop} (h : P a) : Ret (Pure.pure a : M α) P := by
  intro s v hv
  cases hv
  exact h

theorem triv {α : Type} (x : M α) : Ret x (fun _ => True) := fun _ _ _ => trivial

theorem op {α : Type} {f : Mode → Except Err α} {P : α → Prop} (h : ∀ m v, f m = .ok v → P v) : Ret (M.op f) P :=
  fun s v hv => h s v hv

theorem within {α : Type} {m : Mode} {x : M α} {P : α → Prop} (h : Ret x P) : Ret (M.withRounding m x) P :=
  fun _ v hv => h m v hv

theorem store {x : M Num} {P : Num → Prop} (h : Ret x P) : Ret (FIv.store x) (fun w => ∃ v, P v ∧ (w.IsNaN ↔ v.IsNaN)) := by
  refine bind h fun v hv => op fun m w hw => ⟨v, hv, ?_⟩
  cases hd : v.toDbl with
  | error e => rw [hd] at hw; cases hw
  | ok d =>
    rw [hd] at hw
    cases hw
    rw [isNaN_val, isNaN_val]
    exact (toDbl_val hd).1

theorem store_nan {x : M Num} (h : Ret x Num.IsNaN) : Ret (FIv.store x) Num.IsNaN := by
  intro s v hv
  obtain ⟨w, hw, e⟩ := h.store s v hv
  exact e.2 hw

theorem store_iff {x : M Num} {p : Prop} (h : Ret x (fun v => v.IsNaN ↔ p)) : Ret (FIv.store x) (fun v => v.IsNaN ↔ p) := by
  intro s v hv
  obtain ⟨w, hw, e⟩ := h.store s v hv
  exact e.trans hw

end M.Ret

open M

theorem ret_nadd (x y : Num) : Ret (FIv.nadd x y) (fun v => v.IsNaN ↔ SumNaN x.val y.val) := Ret.op fun _ _ h => add_nan h

theorem ret_nmul (x y : Num) : Ret (FIv.nmul x y) (fun v => v.IsNaN ↔ ProdNaN x.val y.val) := Ret.op fun _ _ h => mul_nan h

theorem ret_ndiv (x y : Num) : Ret (FIv.ndiv x y) (fun v => v.IsNaN ↔ QuotNaN x.val y.val) := Ret.op fun _ _ h => div_nan h

theorem ret_nsub {x y : Num} (h : x.IsNaN ∨ y.IsNaN) : Ret (FIv.nsub x y) Num.IsNaN := Ret.op fun _ _ e => sub_nan e h

theorem ret_nmul' {x y : Num} (h : x.IsNaN ∨ y.IsNaN) : Ret (FIv.nmul x y) Num.IsNaN := by
  intro s v hv
  refine (ret_nmul x y s v hv).2 ?_
  rcases h with h | h
  · exact Or.inl (isNaN_val.1 h)
  · exact Or.inr (Or.inl (isNaN_val.1 h))

theorem ret_nadd' {x y : Num} (h : x.IsNaN ∨ y.IsNaN) : Ret (FIv.nadd x y) Num.IsNaN := by
  intro s v hv
  refine (ret_nadd x y s v hv).2 ?_
  rcases h with h | h
  · exact Or.inl (isNaN_val.1 h)
  · exact Or.inr (Or.inl (isNaN_val.1 h))

theorem ret_ndiv' {x y : Num} (h : x.IsNaN ∨ y.IsNaN) : Ret (FIv.ndiv x y) Num.IsNaN := by
  intro s v hv
  refine (ret_ndiv x y s v hv).2 ?_
  rcases h with h | h
  · exact Or.inl (isNaN_val.1 h)
  · exact Or.inr (Or.inl (isNaN_val.1 h))

theorem ret_min4 {p q r t : M Num} {P : Prop} (h : Ret p (fun v => v.IsNaN ↔ P)) :
    Ret (FIv.min4 p q r t) (fun v => v.IsNaN ↔ P) := by
  refine Ret.bind h fun a ha => Ret.bind (Ret.triv _) fun b _ => Ret.bind (Ret.triv _) fun c _ =>
    Ret.bind (Ret.triv _) fun d _ => Ret.pure ?_
  rw [min2_isNaN, min2_isNaN, min2_isNaN]
  exact ha

theorem ret_max4 {p q r t : M Num} {P : Prop} (h : Ret p (fun v => v.IsNaN ↔ P)) :
    Ret (FIv.max4 p q r t) (fun v => v.IsNaN ↔ P) := by
  refine Ret.bind h fun a ha => Ret.bind (Ret.triv _) fun b _ => Ret.bind (Ret.triv _) fun c _ =>
    Ret.bind (Ret.triv _) fun d _ => Ret.pure ?_
  rw [max2_isNaN, max2_isNaN, max2_isNaN]
  exact ha

/-! ## Sums -/

/-- C120: an end of `X + Y` is NaN exactly when the sum of the two ends is so by IEEE 754. -/
theorem C120_add_iff (X Y : FIv) (s : Mode) (Z : FIv) (h : (FIv.add X Y s).1 = .ok Z) :
    (Z.a.IsNaN ↔ SumNaN X.a.val Y.a.val) ∧ (Z.b.IsNaN ↔ SumNaN X.b.val Y.b.val) := by
  have : Ret (FIv.add X Y) (fun Z => (Z.a.IsNaN ↔ SumNaN X.a.val Y.a.val) ∧ (Z.b.IsNaN ↔ SumNaN X.b.val Y.b.val)) :=
    Ret.bind (Ret.within (ret_nadd _ _).store_iff) fun p hp => Ret.bind (Ret.within (ret_nadd _ _).store_iff) fun q hq =>
      Ret.pure ⟨hp, hq⟩
  exact this s Z h

/-- C120 for sums. -/
theorem C120_add : C120_statement FIv.add := by
  intro X Y s Z hn h
  obtain ⟨h1, h2⟩ := C120_add_iff X Y s Z h
  simp only [FIv.HasNaN, isNaN_val] at hn ⊢
  rw [← isNaN_val, ← isNaN_val, h1, h2]
  unfold SumNaN
  tauto

/-- C120 for differences. -/
theorem C120_sub : C120_statement FIv.sub := by
  intro X Y s Z hn h
  have key : Ret (FIv.sub X Y) (fun Z => (X.a.IsNaN ∨ Y.b.IsNaN → Z.a.IsNaN) ∧ (X.b.IsNaN ∨ Y.a.IsNaN → Z.b.IsNaN)) := by
    refine Ret.bind (P := fun v => X.a.IsNaN ∨ Y.b.IsNaN → v.IsNaN) (Ret.within ?_) fun p hp =>
      Ret.bind (P := fun v => X.b.IsNaN ∨ Y.a.IsNaN → v.IsNaN) (Ret.within ?_) fun q hq => Ret.pure ⟨hp, hq⟩
    · exact fun s v hv hh => (ret_nsub hh).store_nan s v hv
    · exact fun s v hv hh => (ret_nsub hh).store_nan s v hv
  obtain ⟨h1, h2⟩ := key s Z h
  unfold FIv.HasNaN at *
  tauto

/-! ## Products and quotients of classical intervals -/

/-- C120: the product of classical intervals has NaN ends exactly when the product of the two lower ends is NaN; the
other three products are passed over by `min` and `max`. -/
theorem C120_mul_iff (X Y : FIv) (hX : X.cls = .classical) (hY : Y.cls = .classical) (s : Mode) (Z : FIv)
    (h : (FIv.mul X Y s).1 = .ok Z) :
    (Z.a.IsNaN ↔ ProdNaN X.a.val Y.a.val) ∧ (Z.b.IsNaN ↔ ProdNaN X.a.val Y.a.val) := by
  have : Ret (FIv.mul X Y) (fun Z => (Z.a.IsNaN ↔ ProdNaN X.a.val Y.a.val) ∧ (Z.b.IsNaN ↔ ProdNaN X.a.val Y.a.val)) := by
    unfold FIv.mul
    rw [hX, hY]
    exact Ret.bind (Ret.within (ret_min4 (ret_nmul _ _)).store_iff) fun p hp =>
      Ret.bind (Ret.within (ret_max4 (ret_nmul _ _)).store_iff) fun q hq => Ret.pure ⟨hp, hq⟩
  exact this s Z h

/-- C120: the quotient of classical intervals, when it is returned, has NaN ends exactly when the quotient of the two lower
ends is NaN. -/
theorem C120_div_iff (X Y : FIv) (hX : X.cls = .classical) (hY : Y.cls = .classical) (s : Mode) (Z : FIv)
    (h : (FIv.div X Y s).1 = .ok Z) :
    (Z.a.IsNaN ↔ QuotNaN X.a.val Y.a.val) ∧ (Z.b.IsNaN ↔ QuotNaN X.a.val Y.a.val) := by
  have : Ret (FIv.div X Y) (fun Z => (Z.a.IsNaN ↔ QuotNaN X.a.val Y.a.val) ∧ (Z.b.IsNaN ↔ QuotNaN X.a.val Y.a.val)) := by
    unfold FIv.div
    split_ifs
    · intro s v hv; cases hv
    · rw [hX, hY]
      exact Ret.bind (Ret.within (ret_min4 (ret_ndiv _ _)).store_iff) fun p hp =>
        Ret.bind (Ret.within (ret_max4 (ret_ndiv _ _)).store_iff) fun q hq => Ret.pure ⟨hp, hq⟩
  exact this s Z h

/-- C120: a number times a classical interval has NaN ends exactly when its product with the lower end is NaN. -/
theorem C120_rmul_iff (c : Num) (X : FIv) (hX : X.cls = .classical) (s : Mode) (Z : FIv)
    (h : (FIv.rmul c X s).1 = .ok Z) :
    (Z.a.IsNaN ↔ ProdNaN c.val X.a.val) ∧ (Z.b.IsNaN ↔ ProdNaN c.val X.a.val) := by
  have : Ret (FIv.rmul c X) (fun Z => (Z.a.IsNaN ↔ ProdNaN c.val X.a.val) ∧ (Z.b.IsNaN ↔ ProdNaN c.val X.a.val)) := by
    unfold FIv.rmul
    rw [hX]
    refine Ret.bind (Ret.within (Ret.store_iff (Ret.bind (ret_nmul c X.a) fun p hp => Ret.bind (Ret.triv _) fun q _ =>
      Ret.pure ?_))) fun p hp => Ret.bind (Ret.within (Ret.store_iff (Ret.bind (ret_nmul c X.a) fun p hp =>
        Ret.bind (Ret.triv _) fun q _ => Ret.pure ?_))) fun q hq => Ret.pure ⟨hp, hq⟩
    · rw [min2_isNaN]; exact hp
    · rw [max2_isNaN]; exact hp
  exact this s Z h

/-! ## Kaucher products -/

theorem ret_plus {t : Num} : Ret (FIv.plus t) (fun v => v.IsNaN ↔ t.IsNaN) :=
  Ret.store_iff (Ret.pure (max2_isNaN _ _))

theorem ret_parts (a b : Num) : Ret (FIv.parts a b) (fun p => (a.IsNaN → p.ip.IsNaN ∧ p.im.IsNaN) ∧
    (b.IsNaN → p.sp.IsNaN ∧ p.sm.IsNaN)) := by
  refine Ret.bind ret_plus fun ip hip => Ret.bind ret_plus fun sp hsp =>
    Ret.bind (P := fun v => a.IsNaN → v.IsNaN) ?_ fun im him => Ret.bind (P := fun v => b.IsNaN → v.IsNaN) ?_ fun sm hsm =>
      Ret.pure ⟨fun h => ⟨hip.2 h, him h⟩, fun h => ⟨hsp.2 h, hsm h⟩⟩
  · exact fun s v hv h => (ret_nsub (Or.inr h)).store_nan s v hv
  · exact fun s v hv h => (ret_nsub (Or.inr h)).store_nan s v hv

theorem ret_maxForm {p1 q1 p2 q2 p3 q3 p4 q4 : Num} (h : (p1.IsNaN ∨ q1.IsNaN) ∨ (p3.IsNaN ∨ q3.IsNaN)) :
    Ret (FIv.maxForm p1 q1 p2 q2 p3 q3 p4 q4) Num.IsNaN := by
  refine Ret.bind (P := fun v => p1.IsNaN ∨ q1.IsNaN → v.IsNaN) (fun s v hv hh => ret_nmul' hh s v hv) fun t1 h1 =>
    Ret.bind (Ret.triv _) fun t2 _ => Ret.bind (P := fun v => p3.IsNaN ∨ q3.IsNaN → v.IsNaN)
      (fun s v hv hh => ret_nmul' hh s v hv) fun t3 h3 => Ret.bind (Ret.triv _) fun t4 _ => ret_nsub ?_
  rcases h with h | h
  · exact Or.inl ((max2_isNaN _ _).2 (h1 h))
  · exact Or.inr ((max2_isNaN _ _).2 (h3 h))

theorem ret_sumForm {p1 q1 p2 q2 p3 q3 p4 q4 : Num}
    (h : (p1.IsNaN ∨ q1.IsNaN) ∨ (p2.IsNaN ∨ q2.IsNaN) ∨ (p3.IsNaN ∨ q3.IsNaN) ∨ (p4.IsNaN ∨ q4.IsNaN)) :
    Ret (FIv.sumForm p1 q1 p2 q2 p3 q3 p4 q4) Num.IsNaN := by
  refine Ret.bind (P := fun v => p1.IsNaN ∨ q1.IsNaN → v.IsNaN) (fun s v hv hh => ret_nmul' hh s v hv) fun t1 h1 =>
    Ret.bind (P := fun v => p2.IsNaN ∨ q2.IsNaN → v.IsNaN) (fun s v hv hh => ret_nmul' hh s v hv) fun t2 h2 =>
    Ret.bind (P := fun v => t1.IsNaN ∨ t2.IsNaN → v.IsNaN) (fun s v hv hh => ret_nadd' hh s v hv) fun u hu =>
    Ret.bind (P := fun v => p3.IsNaN ∨ q3.IsNaN → v.IsNaN) (fun s v hv hh => ret_nmul' hh s v hv) fun t3 h3 =>
    Ret.bind (P := fun v => u.IsNaN ∨ t3.IsNaN → v.IsNaN) (fun s v hv hh => ret_nsub hh s v hv) fun w hw =>
    Ret.bind (P := fun v => p4.IsNaN ∨ q4.IsNaN → v.IsNaN) (fun s v hv hh => ret_nmul' hh s v hv) fun t4 h4 => ret_nsub ?_
  tauto

theorem ret_mulForm_sum {X Y : FIv} (h : X.HasNaN ∨ Y.HasNaN) : Ret (FIv.mulForm FIv.sumForm X Y) FIv.AllNaN := by
  refine Ret.bind (ret_parts _ _) fun p hp => Ret.bind (ret_parts _ _) fun q hq =>
    Ret.bind (Ret.within (Ret.store_nan (ret_sumForm ?_))) fun u hu => Ret.bind (Ret.within (Ret.store_nan (ret_sumForm ?_)))
      fun w hw => Ret.pure ⟨hu, hw⟩ <;> (unfold FIv.HasNaN at h; tauto)

theorem ret_mulForm_max {X Y : FIv} (h : X.HasNaN ∨ Y.HasNaN) : Ret (FIv.mulForm FIv.maxForm X Y) FIv.HasNaN := by
  have key : Ret (FIv.mulForm FIv.maxForm X Y) (fun Z => (X.HasNaN ∨ Y.a.IsNaN → Z.a.IsNaN) ∧ (X.HasNaN ∨ Y.b.IsNaN → Z.b.IsNaN)) := by
    refine Ret.bind (ret_parts _ _) fun p hp => Ret.bind (ret_parts _ _) fun q hq =>
      Ret.bind (P := fun v => X.HasNaN ∨ Y.a.IsNaN → v.IsNaN) (Ret.within ?_) fun u hu =>
      Ret.bind (P := fun v => X.HasNaN ∨ Y.b.IsNaN → v.IsNaN) (Ret.within ?_) fun w hw => Ret.pure ⟨hu, hw⟩
    · refine fun s v hv hh => (ret_maxForm ?_).store_nan s v hv
      unfold FIv.HasNaN at hh; tauto
    · refine fun s v hv hh => (ret_maxForm ?_).store_nan s v hv
      unfold FIv.HasNaN at hh; tauto
  intro s Z hZ
  obtain ⟨h1, h2⟩ := key s Z hZ
  unfold FIv.HasNaN at *
  tauto

theorem ret_recip (c : Cls) (Y : FIv) : Ret (FIv.recip c Y) (fun R => R.cls = c ∧ (Y.b.IsNaN → R.a.IsNaN) ∧
    (Y.a.IsNaN → R.b.IsNaN)) := by
  refine Ret.bind (P := fun v => Y.b.IsNaN → v.IsNaN) (Ret.within fun s v hv h => (ret_ndiv' (Or.inr h)).store_nan s v hv)
    fun p hp => Ret.bind (P := fun v => Y.a.IsNaN → v.IsNaN)
      (Ret.within fun s v hv h => (ret_ndiv' (Or.inr h)).store_nan s v hv) fun q hq => Ret.pure ⟨rfl, hp, hq⟩

/-- C120 for the product when an operand is of the Kaucher class. -/
theorem C120_mul_kaucher (X Y : FIv) (hc : X.cls = .kaucher ∨ Y.cls = .kaucher) (s : Mode) (Z : FIv)
    (hn : X.HasNaN ∨ Y.HasNaN) (h : (FIv.mul X Y s).1 = .ok Z) : Z.HasNaN := by
  have : Ret (FIv.mul X Y) FIv.HasNaN := by
    unfold FIv.mul
    cases hX : X.cls with
    | classical =>
      cases hY : Y.cls with
      | classical => rw [hX, hY] at hc; simp at hc
      | kaucher => exact fun s v hv => Or.inl (ret_mulForm_sum hn s v hv).1
    | kaucher => exact ret_mulForm_max hn
  exact this s Z h

/-- C120 for the quotient when an operand is of the Kaucher class. -/
theorem C120_div_kaucher (X Y : FIv) (hc : X.cls = .kaucher ∨ Y.cls = .kaucher) (s : Mode) (Z : FIv)
    (hn : X.HasNaN ∨ Y.HasNaN) (h : (FIv.div X Y s).1 = .ok Z) : Z.HasNaN := by
  have hr : ∀ R : FIv, (Y.b.IsNaN → R.a.IsNaN) → (Y.a.IsNaN → R.b.IsNaN) → X.HasNaN ∨ R.HasNaN := by
    intro R h1 h2
    unfold FIv.HasNaN at *
    tauto
  have : Ret (FIv.div X Y) FIv.HasNaN := by
    unfold FIv.div
    split_ifs
    · intro s v hv; cases hv
    cases hX : X.cls with
    | classical =>
      cases hY : Y.cls with
      | classical => rw [hX, hY] at hc; simp at hc
      | kaucher =>
        exact Ret.bind (ret_recip _ _) fun R hR s v hv => C120_mul_kaucher X R (Or.inr hR.1) s v (hr R hR.2.1 hR.2.2) hv
    | kaucher =>
      cases hY : Y.cls with
      | classical =>
        exact Ret.bind (ret_recip _ _) fun R hR s v hv => Or.inl (ret_mulForm_sum (hr R hR.2.1 hR.2.2) s v hv).1
      | kaucher =>
        exact Ret.bind (ret_recip _ _) fun R hR s v hv => C120_mul_kaucher X R (Or.inr hR.1) s v (hr R hR.2.1 hR.2.2) hv
  exact this s Z h

/-! ## The property -/

/-- C120 is false for products and quotients of classical intervals: `[1, nan] * [2, 3]` is `[2, 3]`, `[1, nan] / [2, 4]` is
`[1/4, 1/2]`, and `2 * [1, nan]` is the single number two. -/
theorem C120_nan_false : ¬ C120_statement FIv.mul ∧ ¬ C120_statement FIv.div ∧
    (FIv.rmul (.dbl (.fin 2)) ⟨.classical, .dbl (.fin 1), .dbl .nan⟩ .nearest).1 =
      .ok ⟨.classical, .dbl (.fin 2), .dbl (.fin 2)⟩ := by
  refine ⟨fun h => ?_, fun h => ?_, by decide +kernel⟩
  · have := h ⟨.classical, .dbl (.fin 1), .dbl .nan⟩ ⟨.classical, .dbl (.fin 2), .dbl (.fin 3)⟩ .nearest
      ⟨.classical, .dbl (.fin 2), .dbl (.fin 3)⟩ (Or.inl (Or.inr rfl)) (by decide +kernel)
    simp [FIv.HasNaN, Num.IsNaN] at this
  · have := h ⟨.classical, .dbl (.fin 1), .dbl .nan⟩ ⟨.classical, .dbl (.fin 2), .dbl (.fin 4)⟩ .nearest
      ⟨.classical, .dbl (.fin (1 / 4)), .dbl (.fin (1 / 2))⟩ (Or.inl (Or.inr rfl)) (by decide +kernel)
    simp [FIv.HasNaN, Num.IsNaN] at this

/-- C120 for intervals whose two ends are NaN (the empty set of the library's tests), in every class: whatever `+ - * /`
return has a NaN end, and for classical operands both ends are NaN.  Missing is what `C120_nan_false` refutes: a NaN in an
upper end only. -/
theorem C120_nan_partial (X Y : FIv) (h : X.AllNaN ∨ Y.AllNaN) (s : Mode) (Z : FIv)
    (hZ : (FIv.add X Y s).1 = .ok Z ∨ (FIv.sub X Y s).1 = .ok Z ∨ (FIv.mul X Y s).1 = .ok Z ∨ (FIv.div X Y s).1 = .ok Z) :
    Z.HasNaN ∧ (X.cls = .classical → Y.cls = .classical → Z.AllNaN) := by
  have hh : X.HasNaN ∨ Y.HasNaN := h.imp (fun h => Or.inl h.1) (fun h => Or.inl h.1)
  have hv : X.a.val = .nan ∨ Y.a.val = .nan := h.imp (fun h => isNaN_val.1 h.1) (fun h => isNaN_val.1 h.1)
  have hw : X.b.val = .nan ∨ Y.b.val = .nan := h.imp (fun h => isNaN_val.1 h.2) (fun h => isNaN_val.1 h.2)
  have hp : ProdNaN X.a.val Y.a.val := by unfold ProdNaN; tauto
  have hq : QuotNaN X.a.val Y.a.val := by unfold QuotNaN; tauto
  rcases hZ with hZ | hZ | hZ | hZ
  · obtain ⟨h1, h2⟩ := C120_add_iff X Y s Z hZ
    have : Z.AllNaN := ⟨h1.2 (by unfold SumNaN; tauto), h2.2 (by unfold SumNaN; tauto)⟩
    exact ⟨Or.inl this.1, fun _ _ => this⟩
  · have key : Ret (FIv.sub X Y) FIv.AllNaN := by
      refine Ret.bind (Ret.within (ret_nsub ?_).store_nan) fun p hp =>
        Ret.bind (Ret.within (ret_nsub ?_).store_nan) fun q hq => Ret.pure ⟨hp, hq⟩
      · exact h.imp (fun h => h.1) (fun h => h.2)
      · exact h.imp (fun h => h.2) (fun h => h.1)
    have := key s Z hZ
    exact ⟨Or.inl this.1, fun _ _ => this⟩
  · refine ⟨?_, fun h1 h2 => ⟨(C120_mul_iff X Y h1 h2 s Z hZ).1.2 hp, (C120_mul_iff X Y h1 h2 s Z hZ).2.2 hp⟩⟩
    by_cases hc : X.cls = .kaucher ∨ Y.cls = .kaucher
    · exact C120_mul_kaucher X Y hc s Z hh hZ
    · have h1 : X.cls = .classical := by cases h : X.cls <;> simp_all
      have h2 : Y.cls = .classical := by cases h : Y.cls <;> simp_all
      exact Or.inl ((C120_mul_iff X Y h1 h2 s Z hZ).1.2 hp)
  · refine ⟨?_, fun h1 h2 => ⟨(C120_div_iff X Y h1 h2 s Z hZ).1.2 hq, (C120_div_iff X Y h1 h2 s Z hZ).2.2 hq⟩⟩
    by_cases hc : X.cls = .kaucher ∨ Y.cls = .kaucher
    · exact C120_div_kaucher X Y hc s Z hh hZ
    · have h1 : X.cls = .classical := by cases h : X.cls <;> simp_all
      have h2 : Y.cls = .classical := by cases h : Y.cls <;> simp_all
      exact Or.inl ((C120_div_iff X Y h1 h2 s Z hZ).1.2 hq)

/-- The hypotheses can be met: `[-1, 1] * [nan, nan]`. -/
example : (FIv.mul ⟨.classical, .dbl (.fin (-1)), .dbl (.fin 1)⟩ ⟨.classical, .dbl .nan, .dbl .nan⟩ .nearest).1 =
    .ok ⟨.classical, .dbl .nan, .dbl .nan⟩ := by decide +kernel

/-- An improper interval with a NaN end keeps it. -/
example : (FIv.mul ⟨.kaucher, .dbl (.fin 3), .dbl (.fin 1)⟩ ⟨.classical, .dbl (.fin 2), .dbl .nan⟩ .nearest).1 =
    .ok ⟨.kaucher, .dbl (.fin 6), .dbl .nan⟩ := by decide +kernel

end IntvalPy
