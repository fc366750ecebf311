import Verif.ModelFCompare
import Verif.PropsNaN
import Mathlib.Data.EReal.Basic

/-!
# Comparisons of intervals with infinite, NaN and mixed ends (C134)
-/

set_option autoImplicit false
set_option linter.unusedSectionVars false

namespace IntvalPy

/-- The extended real number denoted by a double; none for NaN. -/
noncomputable def Dbl.ext : Dbl → Option EReal
  | .fin q => some ((q : ℝ) : EReal)
  | .pinf => some ⊤
  | .ninf => some ⊥
  | .nan => none

/-- `r` holds between the values of two doubles, none of which is NaN. -/
def Dbl.Rel (r : EReal → EReal → Prop) (d e : Dbl) : Prop := ∃ x y, d.ext = some x ∧ e.ext = some y ∧ r x y

/-- C134: the order of numbers is the order of the extended reals, NaN being unordered. -/
theorem C134_numbers (x y : Num) :
    (x.lt y = true ↔ x.val.Rel (· < ·) y.val) ∧ (x.le y = true ↔ x.val.Rel (· ≤ ·) y.val) ∧
    (x.eqv y = true ↔ x.val.Rel (· = ·) y.val) := by
  have cast : ∀ p q : ℚ, ((p : ℝ) : EReal) = ((q : ℝ) : EReal) ↔ p = q := fun p q => by
    rw [EReal.coe_eq_coe_iff]; exact_mod_cast Iff.rfl
  have castlt : ∀ p q : ℚ, ((p : ℝ) : EReal) < ((q : ℝ) : EReal) ↔ p < q := fun p q => by
    rw [EReal.coe_lt_coe_iff]; exact_mod_cast Iff.rfl
  have castle : ∀ p q : ℚ, ((p : ℝ) : EReal) ≤ ((q : ℝ) : EReal) ↔ p ≤ q := fun p q => by
    rw [EReal.coe_le_coe_iff]; exact_mod_cast Iff.rfl
  unfold Num.lt Num.le Num.eqv Dbl.Rel
  cases x.val <;> cases y.val <;>
    simp [Dbl.lt, Dbl.le, Dbl.eqv, Dbl.ext, cast, castlt, castle, EReal.coe_lt_top, EReal.bot_lt_coe]

/-- C134: the methods compare both pairs of ends; `!=` is the negation of `==`, also for NaN; a number acts as the
interval `[c, c]`; other types raise `TypeError`, except in `in`. -/
theorem C134_methods (X Y : FIv) :
    (FIv.cmp .lt X (.iv Y) = .ok true ↔ X.a.val.Rel (· < ·) Y.a.val ∧ X.b.val.Rel (· < ·) Y.b.val) ∧
    (FIv.cmp .le X (.iv Y) = .ok true ↔ X.a.val.Rel (· ≤ ·) Y.a.val ∧ X.b.val.Rel (· ≤ ·) Y.b.val) ∧
    (FIv.cmp .eq X (.iv Y) = .ok true ↔ X.a.val.Rel (· = ·) Y.a.val ∧ X.b.val.Rel (· = ·) Y.b.val) ∧
    FIv.cmp .ne X (.iv Y) = (FIv.cmp .eq X (.iv Y)).map not ∧
    FIv.cmp .gt X (.iv Y) = FIv.cmp .lt Y (.iv X) ∧ FIv.cmp .ge X (.iv Y) = FIv.cmp .le Y (.iv X) ∧
    (∀ op c, FIv.cmp op X (.num c) = FIv.cmp op X (.iv ⟨.classical, c, c⟩)) ∧
    (∀ op, FIv.cmp op X .other = .error .typeError) ∧
    (X.contains (.iv Y) = true ↔ X.a.val.Rel (· ≤ ·) Y.a.val ∧ Y.b.val.Rel (· ≤ ·) X.b.val) ∧
    (∀ c, X.contains (.num c) = X.contains (.iv ⟨.classical, c, c⟩)) ∧ X.contains .other = false := by
  refine ⟨?_, ?_, ?_, ?_, rfl, rfl, ?_, ?_, ?_, fun c => rfl, rfl⟩
  · simp only [FIv.cmp, FIv.cmpBy, Except.ok.injEq, Bool.and_eq_true, (C134_numbers _ _).1]
  · simp only [FIv.cmp, FIv.cmpBy, Except.ok.injEq, Bool.and_eq_true, (C134_numbers _ _).2.1]
  · simp only [FIv.cmp, FIv.cmpBy, Except.ok.injEq, Bool.and_eq_true, (C134_numbers _ _).2.2]
  · simp only [FIv.cmp, FIv.cmpBy, Except.map, Bool.not_and]
  · intro op c; cases op <;> rfl
  · intro op; cases op <;> rfl
  · simp only [FIv.contains, Bool.and_eq_true, (C134_numbers _ _).2.1]

/-- C134: an interval with a NaN end compares as unequal with everything, itself included; every other comparison with it,
in either order, is false. -/
theorem C134_nan (X Y : FIv) (h : X.HasNaN ∨ Y.HasNaN) (op : CmpOp) :
    FIv.cmp op X (.iv Y) = .ok (decide (op = .ne)) ∧ X.contains (.iv Y) = false := by
  have r : ∀ d : Dbl, ∀ R, ¬ Dbl.Rel R .nan d ∧ ¬ Dbl.Rel R d .nan := by
    intro d R
    constructor
    · rintro ⟨x, y, h, -, -⟩; cases h
    · rintro ⟨x, y, -, h, -⟩; cases h
  have bad : ∀ (f g : EReal → EReal → Prop), ¬ (X.a.val.Rel f Y.a.val ∧ X.b.val.Rel g Y.b.val) ∧
      ¬ (Y.a.val.Rel f X.a.val ∧ Y.b.val.Rel g X.b.val) ∧ ¬ (X.a.val.Rel f Y.a.val ∧ Y.b.val.Rel g X.b.val) := by
    intro f g
    rcases h with (h | h) | (h | h) <;> rw [isNaN_val] at h <;> rw [h] <;>
      exact ⟨fun k => by first | exact (r _ _).1 k.1 | exact (r _ _).2 k.1 | exact (r _ _).1 k.2 | exact (r _ _).2 k.2,
        fun k => by first | exact (r _ _).1 k.1 | exact (r _ _).2 k.1 | exact (r _ _).1 k.2 | exact (r _ _).2 k.2,
        fun k => by first | exact (r _ _).1 k.1 | exact (r _ _).2 k.1 | exact (r _ _).1 k.2 | exact (r _ _).2 k.2⟩
  have cases2 : ∀ {e : Except Err Bool}, (∃ b, e = .ok b) → e ≠ .ok true → e = .ok false := by
    rintro e ⟨b, rfl⟩ hb
    cases b
    · rfl
    · exact absurd rfl hb
  obtain ⟨h1, h2, h3, h4, h5, h6, -, -, h9, -⟩ := C134_methods X Y
  obtain ⟨g1, g2, -⟩ := C134_methods Y X
  have e1 := cases2 ⟨_, rfl⟩ (fun k => (bad _ _).1 (h1.1 k))
  have e2 := cases2 ⟨_, rfl⟩ (fun k => (bad _ _).1 (h2.1 k))
  have e3 : FIv.cmp .eq X (.iv Y) = .ok false := cases2 ⟨_, rfl⟩ (fun k => (bad _ _).1 (h3.1 k))
  have e4 := cases2 ⟨_, rfl⟩ (fun k => (bad _ _).2.1 (g1.1 k))
  have e5 := cases2 ⟨_, rfl⟩ (fun k => (bad _ _).2.1 (g2.1 k))
  refine ⟨?_, Bool.eq_false_iff.mpr fun k => (bad _ _).2.2 (h9.1 k)⟩
  cases op
  · exact e1
  · exact e2
  · exact e3
  · rw [h4, e3]; rfl
  · rw [h5]; exact e4
  · rw [h6]; exact e5

/-- Extended form of membership. -/
theorem FIv.mem_ext {X : FIv} {x : ℝ} :
    X.Mem x ↔ (∃ a, X.a.val.ext = some a ∧ a ≤ (x : EReal)) ∧ ∃ b, X.b.val.ext = some b ∧ (x : EReal) ≤ b := by
  unfold FIv.Mem
  cases X.a.val <;> cases X.b.val <;> simp [Dbl.Lower, Dbl.Upper, Dbl.ext]

/-- A bound of a set of reals with a largest lower bound: below every member means below the end. -/
theorem FIv.ends_of_mem {X : FIv} {r : ℝ} (h : X.Mem r) :
    ∃ a b : EReal, X.a.val.ext = some a ∧ X.b.val.ext = some b ∧ a ≤ r ∧ (r : EReal) ≤ b ∧
      (∀ x : ℝ, X.Mem x ↔ a ≤ x ∧ (x : EReal) ≤ b) := by
  obtain ⟨⟨a, ha, h1⟩, b, hb, h2⟩ := FIv.mem_ext.1 h
  refine ⟨a, b, ha, hb, h1, h2, fun x => ?_⟩
  rw [FIv.mem_ext]
  constructor
  · rintro ⟨⟨a', h, h1⟩, b', k, h2⟩
    rw [ha] at h; rw [hb] at k
    cases h; cases k
    exact ⟨h1, h2⟩
  · exact fun h => ⟨⟨a, ha, h.1⟩, b, hb, h.2⟩

/-- Upper ends are ordered when every member of the first interval is below some member of the second. -/
theorem upper_iff {a b c d : EReal} {r s : ℝ} (h1 : a ≤ r) (h2 : (r : EReal) ≤ b) (h3 : c ≤ s) (h4 : (s : EReal) ≤ d) :
    b ≤ d ↔ ∀ x : ℝ, a ≤ x ∧ (x : EReal) ≤ b → ∃ y : ℝ, (c ≤ y ∧ (y : EReal) ≤ d) ∧ x ≤ y := by
  constructor
  · rintro h x ⟨-, hx⟩
    refine ⟨max x s, ⟨?_, ?_⟩, le_max_left _ _⟩
    · exact h3.trans (EReal.coe_le_coe_iff.2 (le_max_right _ _))
    · rcases max_choice x s with e | e <;> rw [e]
      exacts [hx.trans h, h4]
  · intro h
    refine le_of_forall_lt fun e he => ?_
    obtain ⟨q, hq1, hq2⟩ := EReal.lt_iff_exists_real_btwn.1 he
    obtain ⟨y, ⟨-, hy⟩, hle⟩ := h (max q r) ⟨h1.trans (EReal.coe_le_coe_iff.2 (le_max_right _ _)), by
      rcases max_choice q r with e | e <;> rw [e]
      exacts [hq2.le, h2]⟩
    exact hq1.trans_le ((EReal.coe_le_coe_iff.2 ((le_max_left _ _).trans hle)).trans hy)

/-- Lower ends are ordered when every member of the second interval is above some member of the first. -/
theorem lower_iff {a b c d : EReal} {r s : ℝ} (h1 : a ≤ r) (h2 : (r : EReal) ≤ b) (h3 : c ≤ s) (h4 : (s : EReal) ≤ d) :
    a ≤ c ↔ ∀ y : ℝ, c ≤ y ∧ (y : EReal) ≤ d → ∃ x : ℝ, (a ≤ x ∧ (x : EReal) ≤ b) ∧ x ≤ y := by
  constructor
  · rintro h y ⟨hy, -⟩
    refine ⟨min y r, ⟨?_, ?_⟩, min_le_left _ _⟩
    · rcases min_choice y r with e | e <;> rw [e]
      exacts [h.trans hy, h1]
    · exact le_trans (EReal.coe_le_coe_iff.2 (min_le_right _ _)) h2
  · intro h
    refine le_of_forall_gt fun e he => ?_
    obtain ⟨q, hq1, hq2⟩ := EReal.lt_iff_exists_real_btwn.1 he
    obtain ⟨x, ⟨hx, -⟩, hle⟩ := h (min q s) ⟨by
      rcases min_choice q s with e | e <;> rw [e]
      exacts [hq1.le, h3], le_trans (EReal.coe_le_coe_iff.2 (min_le_right _ _)) h4⟩
    exact (hx.trans (EReal.coe_le_coe_iff.2 (hle.trans (min_le_left _ _)))).trans_lt hq2

/-- The lower end is determined by the members. -/
theorem lower_sub {a b c d : EReal} {s : ℝ} (h3 : c ≤ s) (h4 : (s : EReal) ≤ d) :
    a ≤ c ∧ d ≤ b ↔ ∀ y : ℝ, c ≤ y ∧ (y : EReal) ≤ d → a ≤ y ∧ (y : EReal) ≤ b := by
  constructor
  · rintro ⟨h, k⟩ y ⟨h1, h2⟩
    exact ⟨h.trans h1, h2.trans k⟩
  · intro h
    constructor
    · refine le_of_forall_gt fun e he => ?_
      obtain ⟨q, hq1, hq2⟩ := EReal.lt_iff_exists_real_btwn.1 he
      have := (h (min q s) ⟨by
        rcases min_choice q s with e | e <;> rw [e]
        exacts [hq1.le, h3], le_trans (EReal.coe_le_coe_iff.2 (min_le_right _ _)) h4⟩).1
      exact (this.trans (EReal.coe_le_coe_iff.2 (min_le_left _ _))).trans_lt hq2
    · refine le_of_forall_lt fun e he => ?_
      obtain ⟨q, hq1, hq2⟩ := EReal.lt_iff_exists_real_btwn.1 he
      have := (h (max q s) ⟨h3.trans (EReal.coe_le_coe_iff.2 (le_max_right _ _)), by
        rcases max_choice q s with e | e <;> rw [e]
        exacts [hq2.le, h4]⟩).2
      exact hq1.trans_le ((EReal.coe_le_coe_iff.2 (le_max_left _ _)).trans this)

/-- C134: what `<=`, `==`, `in` say about the sets of real members, for intervals with a real member (unbounded ones
included). -/
theorem C134_sets (X Y : FIv) (hX : ∃ r, X.Mem r) (hY : ∃ r, Y.Mem r) :
    (FIv.cmp .le X (.iv Y) = .ok true ↔
      (∀ x, X.Mem x → ∃ y, Y.Mem y ∧ x ≤ y) ∧ ∀ y, Y.Mem y → ∃ x, X.Mem x ∧ x ≤ y) ∧
    (FIv.cmp .eq X (.iv Y) = .ok true ↔ ∀ r, X.Mem r ↔ Y.Mem r) ∧
    (X.contains (.iv Y) = true ↔ ∀ r, Y.Mem r → X.Mem r) ∧
    (∀ (c : Num) (q : ℚ), c.val = .fin q → (X.contains (.num c) = true ↔ X.Mem q)) := by
  obtain ⟨r, hr⟩ := hX
  obtain ⟨s, hs⟩ := hY
  obtain ⟨a, b, ha, hb, h1, h2, mX⟩ := FIv.ends_of_mem hr
  obtain ⟨c, d, hc, hd, h3, h4, mY⟩ := FIv.ends_of_mem hs
  obtain ⟨-, e2, e3, -, -, -, -, -, e9, e10, -⟩ := C134_methods X Y
  have rel : ∀ {u v : Dbl} {p q : EReal} (R : EReal → EReal → Prop), u.ext = some p → v.ext = some q → (Dbl.Rel R u v ↔ R p q) := by
    intro u v p q R hu hv
    constructor
    · rintro ⟨x, y, h, k, hR⟩
      rw [hu] at h; rw [hv] at k
      cases h; cases k
      exact hR
    · exact fun h => ⟨p, q, hu, hv, h⟩
  refine ⟨?_, ?_, ?_, ?_⟩
  · rw [e2, rel _ ha hc, rel _ hb hd]
    simp only [mX, mY]
    rw [lower_iff h1 h2 h3 h4, upper_iff h1 h2 h3 h4, and_comm]
  · rw [e3, rel _ ha hc, rel _ hb hd]
    simp only [mX, mY]
    constructor
    · rintro ⟨rfl, rfl⟩ x; exact Iff.rfl
    · intro h
      have k1 := (lower_sub (a := a) (b := b) h3 h4).2 fun y hy => (h y).2 hy
      have k2 := (lower_sub (a := c) (b := d) h1 h2).2 fun y hy => (h y).1 hy
      exact ⟨le_antisymm k1.1 k2.1, le_antisymm k2.2 k1.2⟩
  · rw [e9, rel _ ha hc, rel _ hd hb]
    simp only [mX, mY]
    exact lower_sub h3 h4
  · intro n q hq
    have hn : n.val.ext = some (((q : ℝ)) : EReal) := by rw [hq]; rfl
    rw [e10, (C134_methods X _).2.2.2.2.2.2.2.2.1, rel _ ha hn, rel _ hn hb, mX]

/-- C134, the full statement about `<`: every member of the first interval is below some member of the second and every
member of the second is above some member of the first. -/
def C134_strict_statement : Prop :=
  ∀ X Y : FIv, (∃ r, X.Mem r) → (∃ r, Y.Mem r) → (FIv.cmp .lt X (.iv Y) = .ok true ↔
    (∀ x, X.Mem x → ∃ y, Y.Mem y ∧ x < y) ∧ ∀ y, Y.Mem y → ∃ x, X.Mem x ∧ x < y)

/-- C134: the statement about `<` holds unless the two intervals share an infinite end. -/
theorem C134_strict_partial (X Y : FIv) (hX : ∃ r, X.Mem r) (hY : ∃ r, Y.Mem r)
    (hl : ¬ (X.a.val = .ninf ∧ Y.a.val = .ninf)) (hu : ¬ (X.b.val = .pinf ∧ Y.b.val = .pinf)) :
    (FIv.cmp .lt X (.iv Y) = .ok true ↔
      (∀ x, X.Mem x → ∃ y, Y.Mem y ∧ x < y) ∧ ∀ y, Y.Mem y → ∃ x, X.Mem x ∧ x < y) := by
  have lo : ∀ {Z : FIv} {z : ℝ}, Z.Mem z → Z.a.val = .ninf ∨ ∃ q : ℚ, Z.a.val = .fin q ∧ Z.Mem q := by
    intro Z z h
    obtain ⟨h1, h2⟩ := h
    cases ha : Z.a.val with
    | fin q =>
      right
      refine ⟨q, rfl, ?_, ?_⟩
      · rw [ha]; exact le_refl _
      · rw [ha] at h1
        cases hb : Z.b.val with
        | fin p => rw [hb] at h2; exact le_trans h1 h2
        | pinf => trivial
        | ninf => rw [hb] at h2; exact h2
        | nan => rw [hb] at h2; exact h2
    | ninf => exact Or.inl rfl
    | pinf => rw [ha] at h1; exact h1.elim
    | nan => rw [ha] at h1; exact h1.elim
  have up : ∀ {Z : FIv} {z : ℝ}, Z.Mem z → Z.b.val = .pinf ∨ ∃ q : ℚ, Z.b.val = .fin q ∧ Z.Mem q := by
    intro Z z h
    obtain ⟨h1, h2⟩ := h
    cases hb : Z.b.val with
    | fin q =>
      right
      refine ⟨q, rfl, ?_, ?_⟩
      · rw [hb] at h2
        cases ha : Z.a.val with
        | fin p => rw [ha] at h1; exact le_trans h1 h2
        | ninf => trivial
        | pinf => rw [ha] at h1; exact h1
        | nan => rw [ha] at h1; exact h1
      · rw [hb]; exact le_refl _
    | pinf => exact Or.inl rfl
    | ninf => rw [hb] at h2; exact h2.elim
    | nan => rw [hb] at h2; exact h2.elim
  obtain ⟨r, hr⟩ := hX
  obtain ⟨s, hs⟩ := hY
  have key : FIv.cmp .lt X (.iv Y) = .ok true ↔ Dbl.lt X.a.val Y.a.val = true ∧ Dbl.lt X.b.val Y.b.val = true := by
    simp [FIv.cmp, FIv.cmpBy, Num.lt]
  have toMemLo : ∀ {Z : FIv} {z x : ℝ}, Z.Mem z → Z.a.val.Lower x → x ≤ z → Z.Mem x := by
    intro Z z x h1 h2 h3
    refine ⟨h2, ?_⟩
    have := h1.2
    cases hb : Z.b.val <;> rw [hb] at this <;> first | exact this.elim | trivial | exact h3.trans this
  have toMemUp : ∀ {Z : FIv} {z x : ℝ}, Z.Mem z → Z.b.val.Upper x → z ≤ x → Z.Mem x := by
    intro Z z x h1 h2 h3
    refine ⟨?_, h2⟩
    have := h1.1
    cases hb : Z.a.val <;> rw [hb] at this <;> first | exact this.elim | trivial | exact this.trans h3
  rw [key, and_comm]
  refine and_congr ?_ ?_
  · -- upper ends
    rcases up hr with hXb | ⟨p, hXb, hp⟩ <;> rcases up hs with hYb | ⟨q, hYb, hq⟩
    · exact absurd ⟨hXb, hYb⟩ hu
    · rw [hXb, hYb]
      refine ⟨fun h => (by cases h), fun h => ?_⟩
      obtain ⟨y, hy, hlt⟩ := h (max r q) (toMemUp hr (by rw [hXb]; trivial) (le_max_left _ _))
      have : y ≤ q := by have := hy.2; rw [hYb] at this; exact this
      exact absurd (lt_of_le_of_lt (le_max_right r (q : ℝ)) hlt) (not_lt.mpr this)
    · rw [hXb, hYb]
      refine ⟨fun _ x hx => ⟨max (x + 1) s, toMemUp hs (by rw [hYb]; trivial) (le_max_right _ _),
        lt_of_lt_of_le (by linarith) (le_max_left _ _)⟩, fun _ => rfl⟩
    · rw [hXb, hYb]
      simp only [Dbl.lt, decide_eq_true_eq]
      refine ⟨fun h x hx => ⟨q, hq, lt_of_le_of_lt (b := (p : ℝ)) (by have := hx.2; rw [hXb] at this; exact this)
        (by exact_mod_cast h)⟩, fun h => ?_⟩
      obtain ⟨y, hy, hlt⟩ := h p hp
      have : y ≤ q := by have := hy.2; rw [hYb] at this; exact this
      exact_mod_cast hlt.trans_le this
  · -- lower ends
    rcases lo hr with hXa | ⟨p, hXa, hp⟩ <;> rcases lo hs with hYa | ⟨q, hYa, hq⟩
    · exact absurd ⟨hXa, hYa⟩ hl
    · rw [hXa, hYa]
      refine ⟨fun _ y hy => ⟨min (y - 1) r, toMemLo hr (by rw [hXa]; trivial) (min_le_right _ _),
        lt_of_le_of_lt (min_le_left _ _) (by linarith)⟩, fun _ => rfl⟩
    · rw [hXa, hYa]
      refine ⟨fun h => (by cases h), fun h => ?_⟩
      obtain ⟨x, hx, hlt⟩ := h (min s p) (toMemLo hs (by rw [hYa]; trivial) (min_le_left _ _))
      have : (p : ℝ) ≤ x := by have := hx.1; rw [hXa] at this; exact this
      exact absurd (lt_of_lt_of_le hlt (min_le_right s (p : ℝ))) (not_lt.mpr this)
    · rw [hXa, hYa]
      simp only [Dbl.lt, decide_eq_true_eq]
      refine ⟨fun h y hy => ⟨p, hp, lt_of_lt_of_le (b := (q : ℝ)) (by exact_mod_cast h)
        (by have := hy.1; rw [hYa] at this; exact this)⟩, fun h => ?_⟩
      obtain ⟨x, hx, hlt⟩ := h q hq
      have : (p : ℝ) ≤ x := by have := hx.1; rw [hXa] at this; exact this
      exact_mod_cast this.trans_lt hlt

/-- C134 is false of `<` for a shared infinite end: `[-inf, 1] < [-inf, 2]` is `False`.  (IEEE 1788 calls the relation
`strictLess` and makes it true here.) -/
theorem C134_strict_false : ¬ C134_strict_statement := by
  intro h
  have := (h ⟨.classical, .dbl .ninf, .int 1⟩ ⟨.classical, .dbl .ninf, .int 2⟩ ⟨0, trivial, by simp [Num.val, Dbl.Upper]⟩
    ⟨0, trivial, by simp [Num.val, Dbl.Upper]⟩).2 ⟨fun x hx => ⟨2, ⟨trivial, by simp [Num.val, Dbl.Upper]⟩, by
      have := hx.2
      simp [Num.val, Dbl.Upper] at this
      linarith⟩, fun y hy => ⟨min (y - 1) 1, ⟨trivial, by simp [Num.val, Dbl.Upper]⟩,
        lt_of_le_of_lt (min_le_left _ _) (by linarith)⟩⟩
  simp [FIv.cmp, FIv.cmpBy, Num.lt, Num.val, Dbl.lt] at this

/-- C90 for comparisons: on finite ends the binary64 methods agree with those of the ordered-field model (C18). -/
theorem C90_refine_compare (op : CmpOp) (X Y : FIv) (p q r t : ℚ) (h1 : X.a.val = .fin p) (h2 : X.b.val = .fin q)
    (h3 : Y.a.val = .fin r) (h4 : Y.b.val = .fin t) :
    FIv.cmp op X (.iv Y) = Iv.cmp op (⟨X.cls, p, q⟩ : Iv ℚ) (.iv ⟨Y.cls, r, t⟩) := by
  cases op <;> simp [FIv.cmp, FIv.cmpBy, Iv.cmp, Iv.lt, Iv.le, Iv.eq, Iv.ne, Iv.gt, Iv.ge, Iv.cmpAnd, Num.lt, Num.le, Num.eqv, h1, h2,
    h3, h4, Dbl.lt, Dbl.le, Dbl.eqv]

/-- Values: unbounded, mixed and NaN ends. -/
example : FIv.cmp .le ⟨.classical, .dbl .ninf, .int 1⟩ (.iv ⟨.classical, .int 0, .dbl .pinf⟩) = .ok true ∧
    FIv.cmp .eq ⟨.classical, .int 1, .int 2⟩ (.iv ⟨.classical, .dbl (.fin 1), .dbl (.fin 2)⟩) = .ok true ∧
    FIv.cmp .lt ⟨.classical, .dbl .ninf, .dbl .ninf⟩ (.num (.dbl .ninf)) = .ok false ∧
    FIv.cmp .ne ⟨.classical, .dbl .nan, .dbl .nan⟩ (.iv ⟨.classical, .dbl .nan, .dbl .nan⟩) = .ok true ∧
    (⟨.classical, .int 0, .dbl .pinf⟩ : FIv).contains (.num (.dbl .pinf)) = true := by
  decide +kernel

/-- The hypotheses of `C134_sets` and `C134_strict_partial` hold for `[-inf, 1]` and `[0, inf]`. -/
example : (∃ r, (⟨.classical, .dbl .ninf, .int 1⟩ : FIv).Mem r) ∧ (∃ r, (⟨.classical, .int 0, .dbl .pinf⟩ : FIv).Mem r) ∧
    FIv.cmp .lt ⟨.classical, .dbl .ninf, .int 1⟩ (.iv ⟨.classical, .int 0, .dbl .pinf⟩) = .ok true :=
  ⟨⟨0, trivial, by simp [Num.val, Dbl.Upper]⟩, ⟨0, by simp [Num.val, Dbl.Lower], trivial⟩, by decide +kernel⟩

end IntvalPy
