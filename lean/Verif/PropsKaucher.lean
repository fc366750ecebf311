import Verif.PropsKernel
import Verif.SpecKaucher

/-!
# C09, C13 - C17: Kaucher arithmetic
-/

set_option linter.unusedSectionVars false

set_option autoImplicit false

namespace IntvalPy
open Spec

variable {K : Type*} [Field K] [LinearOrder K] [IsStrictOrderedRing K]

/-! ## C13 -/

theorem C13_add_comm (X Y : Iv K) : SameEnds (X.add Rnd.exact Y) (Y.add Rnd.exact X) := by
  unfold SameEnds Iv.add
  cases X.cls <;> cases Y.cls <;> simp [add_comm]

/-- C13: addition of arbitrary proper or improper intervals is commutative, associative, has `[0,0]` as
neutral element, and `X + X.opp = [0,0]`, `X - Y = X + (-Y)`, in exact arithmetic. -/
theorem C13_additive_group (X Y Z : Iv K) (c : Cls) :
    SameEnds (X.add Rnd.exact Y) (Y.add Rnd.exact X) ∧
    SameEnds ((X.add Rnd.exact Y).add Rnd.exact Z) (X.add Rnd.exact (Y.add Rnd.exact Z)) ∧
    SameEnds (X.add Rnd.exact ⟨c, 0, 0⟩) X ∧
    SameEnds (X.add Rnd.exact X.opp) ⟨c, 0, 0⟩ ∧
    SameEnds (X.sub Rnd.exact Y) (X.add Rnd.exact Y.neg) := by
  refine ⟨C13_add_comm X Y, ?_, ?_, ?_, ?_⟩
  all_goals unfold SameEnds Iv.add
  · cases X.cls <;> cases Y.cls <;> simp [add_assoc]
  · cases X.cls <;> simp
  · unfold Iv.opp; cases X.cls <;> split_ifs <;> simp
  · unfold Iv.sub Iv.neg; cases X.cls <;> simp [sub_eq_add_neg]

example : (⟨.classical, 1, 3⟩ : Iv ℚ).add Rnd.exact (Iv.opp ⟨.classical, 1, 3⟩) = ⟨.kaucher, 0, 0⟩ := by
  norm_num [Iv.add, Iv.opp]

/-- C13 (cancellation): `X + Y = X + Z` forces `Y = Z` endpoint-wise. -/
theorem C13_add_cancel (X Y Z : Iv K)
    (h : SameEnds (X.add Rnd.exact Y) (X.add Rnd.exact Z)) : SameEnds Y Z := by
  unfold SameEnds Iv.add at *
  cases hx : X.cls <;> simpa [hx] using h

example : ¬ SameEnds ((⟨.classical, 1, 3⟩ : Iv ℚ).add Rnd.exact ⟨.classical, 0, 1⟩)
    ((⟨.classical, 1, 3⟩ : Iv ℚ).add Rnd.exact ⟨.kaucher, 1, 0⟩) := by
  norm_num [Iv.add, SameEnds]

/-! ## C14 -/

theorem plus_of_nonneg {t : K} (h : 0 ≤ t) : Iv.plus t = t := max_eq_left h
theorem plus_of_nonpos {t : K} (h : t ≤ 0) : Iv.plus t = 0 := max_eq_right h
theorem minus_of_nonneg {t : K} (h : 0 ≤ t) : Iv.minus t = 0 := by
  rw [Iv.minus, plus_of_nonneg h, sub_self]
theorem minus_of_nonpos {t : K} (h : t ≤ 0) : Iv.minus t = -t := by
  rw [Iv.minus, plus_of_nonpos h, zero_sub]

theorem loAt_of_nonneg {Y : Iv K} {x : K} (h : 0 ≤ x) : loAt Y x = x * Y.a := by
  unfold loAt
  split_ifs with hY
  · exact min_eq_left (mul_le_mul_of_nonneg_left hY h)
  · exact max_eq_left (mul_le_mul_of_nonneg_left (not_le.mp hY).le h)

theorem loAt_of_nonpos {Y : Iv K} {x : K} (h : x ≤ 0) : loAt Y x = x * Y.b := by
  unfold loAt
  split_ifs with hY
  · exact min_eq_right (mul_le_mul_of_nonpos_left hY h)
  · exact max_eq_right (mul_le_mul_of_nonpos_left (not_le.mp hY).le h)

theorem hiAt_eq_loAt (Y : Iv K) (x : K) : hiAt Y x = loAt ⟨Y.cls, Y.b, Y.a⟩ x := by
  rcases le_total 0 x with h | h
  · rw [loAt_of_nonneg h]
    unfold hiAt
    split_ifs with hY
    · exact max_eq_right (mul_le_mul_of_nonneg_left hY h)
    · exact min_eq_right (mul_le_mul_of_nonneg_left (not_le.mp hY).le h)
  · rw [loAt_of_nonpos h]
    unfold hiAt
    split_ifs with hY
    · exact max_eq_left (mul_le_mul_of_nonpos_left hY h)
    · exact min_eq_left (mul_le_mul_of_nonpos_left (not_le.mp hY).le h)

theorem plus_nonneg (t : K) : 0 ≤ Iv.plus t := le_max_right _ _
theorem minus_nonneg (t : K) : 0 ≤ Iv.minus t := sub_nonneg.mpr (le_max_left _ _)
theorem plus_neg (t : K) : Iv.plus (-t) = Iv.minus t := by
  rcases le_total 0 t with h | h
  · rw [plus_of_nonpos (by linarith), minus_of_nonneg h]
  · rw [plus_of_nonneg (by linarith), minus_of_nonpos h]
theorem minus_neg (t : K) : Iv.minus (-t) = Iv.plus t := by
  rw [← plus_neg, neg_neg]

/-- Lower endpoint of the model's Kaucher product in exact arithmetic. -/
theorem kInf_least (X Y : Iv K) (h : X.a ≤ X.b) :
    IsLeast {t | ∃ x, (X.a ≤ x ∧ x ≤ X.b) ∧ t = loAt Y x} (Iv.kInf (Iv.maxForm id) X Y) := by
  obtain ⟨cx, a, b⟩ := X
  obtain ⟨cy, c, d⟩ := Y
  simp only [Iv.kInf, Iv.maxForm, id] at h ⊢
  have key : ∀ m : K, (∃ x, (a ≤ x ∧ x ≤ b) ∧ m = loAt ⟨cy, c, d⟩ x) →
      (∀ x, a ≤ x → x ≤ b → 0 ≤ x → m ≤ x * c) → (∀ x, a ≤ x → x ≤ b → x ≤ 0 → m ≤ x * d) →
      IsLeast {t | ∃ x, (a ≤ x ∧ x ≤ b) ∧ t = loAt ⟨cy, c, d⟩ x} m := by
    intro m h1 h2 h3
    refine ⟨h1, ?_⟩
    rintro t ⟨x, hx, rfl⟩
    rcases le_total 0 x with h0 | h0
    · rw [loAt_of_nonneg h0]; exact h2 x hx.1 hx.2 h0
    · rw [loAt_of_nonpos h0]; exact h3 x hx.1 hx.2 h0
  rcases le_total 0 a with ha | ha
  · have hb : 0 ≤ b := ha.trans h
    rw [plus_of_nonneg ha, plus_of_nonneg hb, minus_of_nonneg ha, minus_of_nonneg hb, zero_mul, zero_mul,
      max_eq_left (mul_nonneg ha (plus_nonneg _)), max_eq_left (mul_nonneg hb (minus_nonneg _))]
    have hz : ∀ x, a ≤ x → x ≤ 0 → x = 0 := fun x h1 h2 => le_antisymm h2 (ha.trans h1)
    rcases le_total 0 c with hc | hc
    · rw [plus_of_nonneg hc, minus_of_nonneg hc, mul_zero, sub_zero]
      refine key _ ⟨a, ⟨le_refl _, h⟩, by rw [loAt_of_nonneg ha]⟩ ?_ ?_
      · intro x h1 _ _; exact mul_le_mul_of_nonneg_right h1 hc
      · intro x h1 _ h3
        have : a = 0 := le_antisymm (h1.trans h3) ha
        simp [hz x h1 h3, this]
    · rw [plus_of_nonpos hc, minus_of_nonpos hc, mul_zero, mul_neg, zero_sub, neg_neg]
      refine key _ ⟨b, ⟨h, le_refl _⟩, by rw [loAt_of_nonneg hb]⟩ ?_ ?_
      · intro x _ h2 _; exact mul_le_mul_of_nonpos_right h2 hc
      · intro x h1 _ h3
        rw [hz x h1 h3, zero_mul]; exact mul_nonpos_of_nonneg_of_nonpos hb hc
  rcases le_total b 0 with hb | hb
  · rw [plus_of_nonpos ha, plus_of_nonpos hb, minus_of_nonpos ha, minus_of_nonpos hb, zero_mul, zero_mul,
      max_eq_right (mul_nonneg (neg_nonneg.mpr hb) (minus_nonneg _)),
      max_eq_right (mul_nonneg (neg_nonneg.mpr ha) (plus_nonneg _))]
    have hz : ∀ x, x ≤ b → 0 ≤ x → x = 0 := fun x h1 h2 => le_antisymm (h1.trans hb) h2
    rcases le_total 0 d with hd | hd
    · rw [plus_of_nonneg hd, minus_of_nonneg hd, mul_zero, neg_mul, zero_sub, neg_neg]
      refine key _ ⟨a, ⟨le_refl _, h⟩, by rw [loAt_of_nonpos ha]⟩ ?_ ?_
      · intro x _ h1 h3
        rw [hz x h1 h3, zero_mul]; exact mul_nonpos_of_nonpos_of_nonneg ha hd
      · intro x h1 _ _; exact mul_le_mul_of_nonneg_right h1 hd
    · rw [plus_of_nonpos hd, minus_of_nonpos hd, mul_zero, neg_mul_neg, sub_zero]
      refine key _ ⟨b, ⟨h, le_refl _⟩, by rw [loAt_of_nonpos hb]⟩ ?_ ?_
      · intro x _ h1 h3
        have : b = 0 := le_antisymm hb (h3.trans h1)
        simp [hz x h1 h3, this]
      · intro x _ h2 _; exact mul_le_mul_of_nonpos_right h2 hd
  rw [plus_of_nonpos ha, plus_of_nonneg hb, minus_of_nonpos ha, minus_of_nonneg hb, zero_mul, zero_mul,
    max_self, zero_sub]
  have e1 : b * Iv.minus c = -(b * min c 0) := by
    rcases le_total 0 c with hc | hc
    · simp [minus_of_nonneg hc, min_eq_right hc]
    · simp [minus_of_nonpos hc, min_eq_left hc]
  have e2 : -a * Iv.plus d = -(a * max d 0) := by simp [Iv.plus]
  rw [e1, e2, max_neg_neg, neg_neg]
  refine key _ ?_ ?_ ?_
  · rcases le_total (b * min c 0) (a * max d 0) with hm | hm
    · rw [min_eq_left hm]
      rcases le_total 0 c with hc | hc
      · exact ⟨0, ⟨ha, hb⟩, by simp [min_eq_right hc, loAt_of_nonneg (le_refl (0 : K))]⟩
      · exact ⟨b, ⟨h, le_refl _⟩, by rw [loAt_of_nonneg hb, min_eq_left hc]⟩
    · rw [min_eq_right hm]
      rcases le_total 0 d with hd | hd
      · exact ⟨a, ⟨le_refl _, h⟩, by rw [loAt_of_nonpos ha, max_eq_left hd]⟩
      · exact ⟨0, ⟨ha, hb⟩, by simp [max_eq_right hd, loAt_of_nonneg (le_refl (0 : K))]⟩
  · intro x _ h2 h3
    refine (min_le_left _ _).trans ?_
    exact (mul_le_mul_of_nonpos_right h2 (min_le_right _ _)).trans
      (mul_le_mul_of_nonneg_left (min_le_left _ _) h3)
  · intro x h1 _ h3
    refine (min_le_right _ _).trans ?_
    exact (mul_le_mul_of_nonneg_right h1 (le_max_right _ _)).trans
      (mul_le_mul_of_nonpos_left (le_max_left _ _) h3)

theorem loAt_neg (Y : Iv K) (x : K) (c : Cls) : loAt ⟨c, -Y.a, -Y.b⟩ x = - loAt Y x := by
  rcases le_total 0 x with h | h
  · rw [loAt_of_nonneg h, loAt_of_nonneg h]; simp
  · rw [loAt_of_nonpos h, loAt_of_nonpos h]; simp

theorem isGreatest_of_neg {S T : Set K} {m : K} (h : IsLeast S (-m)) (hS : ∀ t, t ∈ T ↔ -t ∈ S) :
    IsGreatest T m := by
  refine ⟨(hS m).mpr h.1, fun t ht => ?_⟩
  have := h.2 ((hS t).mp ht)
  linarith

/-- C14: in exact arithmetic the product computed for a Kaucher-class left factor (and any right factor)
is Kaucher's product of directed intervals. -/
theorem C14_mul_is_kaucher_product (X Y : Iv K) (hX : X.cls = .kaucher) :
    IsKaucherProduct X Y (X.mul Rnd.exact Y).a (X.mul Rnd.exact Y).b := by
  have e : X.mul Rnd.exact Y = Iv.mulMax Rnd.exact X Y := by
    unfold Iv.mul; rw [hX]
  rw [e]
  show IsKaucherProduct X Y (Iv.kInf (Iv.maxForm id) X Y) (Iv.kSup (Iv.maxForm id) X Y)
  unfold IsKaucherProduct Between
  have n1 : ∀ U : Iv K, Iv.kInf (Iv.maxForm id) ⟨U.cls, U.b, U.a⟩ ⟨Y.cls, -Y.a, -Y.b⟩
      = -Iv.kInf (Iv.maxForm id) U Y := by
    intro U
    simp [Iv.kInf, Iv.maxForm, plus_neg, minus_neg]
  have n2 : Iv.kInf (Iv.maxForm id) X ⟨Y.cls, -Y.b, -Y.a⟩ = -Iv.kSup (Iv.maxForm id) X Y := by
    simp [Iv.kInf, Iv.kSup, Iv.maxForm, plus_neg, minus_neg, max_comm]
  have n3 : Iv.kInf (Iv.maxForm id) ⟨X.cls, X.b, X.a⟩ ⟨Y.cls, Y.b, Y.a⟩
      = Iv.kSup (Iv.maxForm id) X Y := by
    simp [Iv.kInf, Iv.kSup, Iv.maxForm]
  dsimp only
  split_ifs with h
  · rw [min_eq_left h, max_eq_right h]
    refine ⟨kInf_least X Y h, ?_⟩
    refine isGreatest_of_neg (n2 ▸ kInf_least X ⟨Y.cls, -Y.b, -Y.a⟩ h) ?_
    intro t
    simp only [Set.mem_setOf_eq, hiAt_eq_loAt]
    constructor
    · rintro ⟨x, hx, rfl⟩
      exact ⟨x, hx, (loAt_neg ⟨Y.cls, Y.b, Y.a⟩ x Y.cls).symm⟩
    · rintro ⟨x, hx, h⟩
      exact ⟨x, hx, by rw [loAt_neg ⟨Y.cls, Y.b, Y.a⟩ x Y.cls] at h; exact neg_injective h⟩
  · have h' : X.b ≤ X.a := (not_le.mp h).le
    rw [min_eq_right h', max_eq_left h']
    constructor
    · have := kInf_least ⟨X.cls, X.b, X.a⟩ ⟨Y.cls, -Y.a, -Y.b⟩ h'
      rw [n1] at this
      refine isGreatest_of_neg this ?_
      intro t
      simp only [Set.mem_setOf_eq]
      constructor
      · rintro ⟨x, hx, rfl⟩
        exact ⟨x, hx, (loAt_neg Y x Y.cls).symm⟩
      · rintro ⟨x, hx, h⟩
        exact ⟨x, hx, by rw [loAt_neg Y x Y.cls] at h; exact neg_injective h⟩
    · have := kInf_least ⟨X.cls, X.b, X.a⟩ ⟨Y.cls, Y.b, Y.a⟩ h'
      rw [n3] at this
      simpa only [hiAt_eq_loAt] using this

example : (⟨.kaucher, 3, -2⟩ : Iv ℚ).mul Rnd.exact ⟨.classical, -1, 5⟩ = ⟨.kaucher, 0, 0⟩ ∧
    (⟨.kaucher, -2, -4⟩ : Iv ℚ).mul Rnd.exact ⟨.classical, 1, 5⟩ = ⟨.kaucher, -10, -4⟩ ∧
    (⟨.kaucher, 4, 2⟩ : Iv ℚ).mul Rnd.exact ⟨.classical, 1, 5⟩ = ⟨.kaucher, 4, 10⟩ := by
  norm_num [Iv.mul, Iv.mulMax, Iv.kInf, Iv.kSup, Iv.maxForm, Iv.plus, Iv.minus]

/-- C14 (commutativity and the result class): two Kaucher-class factors may be exchanged. -/
theorem C14_mul_comm (R : Rnd K) (X Y : Iv K) (hX : X.cls = .kaucher) (hY : Y.cls = .kaucher) :
    X.mul R Y = Y.mul R X := by
  simp only [Iv.mul, hX, hY, Iv.mulMax, Iv.kInf, Iv.kSup, Iv.maxForm, mul_comm, max_comm]

/-- C14 (inverse): if both endpoints have the same strict sign then `X * X.inv = [1, 1]` in exact
arithmetic; here for every class of `X` whose product with its inverse is computed by Kaucher rules. -/
theorem C14_mul_inv (X : Iv K) (hX : WF X) (hs : (0 < X.a ∧ 0 < X.b) ∨ (X.a < 0 ∧ X.b < 0)) :
    ∃ Y, X.inv Rnd.exact = .ok Y ∧ SameEnds (X.mul Rnd.exact Y) ⟨.classical, 1, 1⟩ := by
  obtain ⟨cx, a, b⟩ := X
  simp only at hs
  have ha : a ≠ 0 := by rcases hs with h | h <;> [exact h.1.ne'; exact h.1.ne]
  have hb : b ≠ 0 := by rcases hs with h | h <;> [exact h.2.ne'; exact h.2.ne]
  by_cases hab : b ≤ a
  · refine ⟨⟨.classical, 1 / a, 1 / b⟩, by simp [Iv.inv, ha, hb, hab], ?_⟩
    cases cx with
    | classical =>
      have : a = b := le_antisymm (hX rfl) hab
      subst this
      simp [SameEnds, Iv.mul, Iv.mulCC, ha]
    | kaucher =>
      rcases hs with ⟨h1, h2⟩ | ⟨h1, h2⟩
      · have e1 : 0 ≤ a⁻¹ := (inv_pos.mpr h1).le
        have e2 : 0 ≤ b⁻¹ := (inv_pos.mpr h2).le
        simp [SameEnds, Iv.mul, Iv.mulMax, Iv.kInf, Iv.kSup, Iv.maxForm, plus_of_nonneg, minus_of_nonneg,
          h1.le, h2.le, e1, e2, ha, hb]
      · have e1 : a⁻¹ ≤ 0 := (inv_lt_zero.mpr h1).le
        have e2 : b⁻¹ ≤ 0 := (inv_lt_zero.mpr h2).le
        simp [SameEnds, Iv.mul, Iv.mulMax, Iv.kInf, Iv.kSup, Iv.maxForm, plus_of_nonpos, minus_of_nonpos,
          h1.le, h2.le, e1, e2, ha, hb]
  · refine ⟨⟨.kaucher, 1 / a, 1 / b⟩, by simp [Iv.inv, ha, hb, hab], ?_⟩
    rcases hs with ⟨h1, h2⟩ | ⟨h1, h2⟩
    · have e1 : 0 ≤ a⁻¹ := (inv_pos.mpr h1).le
      have e2 : 0 ≤ b⁻¹ := (inv_pos.mpr h2).le
      cases cx <;>
      simp [SameEnds, Iv.mul, Iv.mulMax, Iv.mulSum, Iv.kInf, Iv.kSup, Iv.maxForm, Iv.sumForm,
        plus_of_nonneg, minus_of_nonneg, h1.le, h2.le, e1, e2, ha, hb]
    · have e1 : a⁻¹ ≤ 0 := (inv_lt_zero.mpr h1).le
      have e2 : b⁻¹ ≤ 0 := (inv_lt_zero.mpr h2).le
      cases cx <;>
      simp [SameEnds, Iv.mul, Iv.mulMax, Iv.mulSum, Iv.kInf, Iv.kSup, Iv.maxForm, Iv.sumForm,
        plus_of_nonpos, minus_of_nonpos, h1.le, h2.le, e1, e2, ha, hb]

example : (⟨.classical, 2, 4⟩ : Iv ℚ).inv Rnd.exact = .ok ⟨.kaucher, 1/2, 1/4⟩ := by
  norm_num [Iv.inv]

/-! ## C15 -/

/-- The full claim C15 for one pair: the product does not depend on the order of the factors. -/
def C15_statement (X Y : Iv ℚ) : Prop := SameEnds (X.mul Rnd.exact Y) (Y.mul Rnd.exact X)

/-- C15 is false: `[-1,2] * Y` with `Y` the Kaucher-class proper interval `[-1,5]` (obtained as
`Interval(2, 3, sortQ=False).dual + Interval(-4, 3)` style sums) is `[-7, 11]`, while `Y * [-1,2]` is the
correct `[-5, 10]`; both operands satisfy the class invariant and are proper. -/
theorem C15_mul_comm_false :
    ∃ X Y : Iv ℚ, WF X ∧ WF Y ∧ Proper X ∧ Proper Y ∧
      (∃ U V : Iv ℚ, U.cls = .kaucher ∧ V.cls = .classical ∧ WF V ∧ Y = U.add Rnd.exact V) ∧
      ¬ C15_statement X Y := by
  refine ⟨⟨.classical, -1, 2⟩, ⟨.kaucher, -1, 5⟩, ?_, ?_, ?_, ?_,
    ⟨⟨.kaucher, 3, 2⟩, ⟨.classical, -4, 3⟩, rfl, rfl, ?_, ?_⟩, ?_⟩
  all_goals norm_num [WF, Proper, C15_statement, SameEnds, Iv.add, Iv.mul, Iv.mulSum, Iv.mulMax, Iv.kInf,
    Iv.kSup, Iv.sumForm, Iv.maxForm, Iv.plus, Iv.minus]

/-- The computed product in the witness misses nothing but is not the product: it also fails the range
property. -/
theorem C15_mul_wrong_value :
    (⟨.classical, -1, 2⟩ : Iv ℚ).mul Rnd.exact ⟨.kaucher, -1, 5⟩ = ⟨.kaucher, -7, 11⟩ ∧
    (⟨.kaucher, -1, 5⟩ : Iv ℚ).mul Rnd.exact ⟨.classical, -1, 2⟩ = ⟨.kaucher, -5, 10⟩ := by
  norm_num [Iv.mul, Iv.mulSum, Iv.mulMax, Iv.kInf, Iv.kSup, Iv.sumForm, Iv.maxForm, Iv.plus, Iv.minus]

theorem mulSum_eq_mulMax (X Y : Iv K) (hX : X.a ≤ X.b)
    (h : ¬ ((X.a < 0 ∧ 0 < X.b) ∧ (Y.a < 0 ∧ 0 < Y.b))) :
    Iv.mulSum Rnd.exact X Y = Iv.mulMax Rnd.exact X Y := by
  have s : ∀ p q r t : K, 0 ≤ p → 0 ≤ q → 0 ≤ r → 0 ≤ t → (p = 0 ∨ q = 0) → (r = 0 ∨ t = 0) →
      Iv.sumForm id p q r t = Iv.maxForm id p q r t := by
    intro p q r t hp hq hr ht h1 h2
    simp only [Iv.sumForm, Iv.maxForm, id]
    rcases h1 with rfl | rfl <;> rcases h2 with rfl | rfl <;>
      simp [max_eq_left, max_eq_right, hp, hq, hr, ht]
  have z : ∀ t : K, t ≤ 0 ∨ Iv.minus t = 0 := fun t =>
    (le_total t 0).imp id minus_of_nonneg
  have hpm : Iv.plus X.a = 0 ∨ Iv.minus X.b = 0 := by
    rcases le_total X.a 0 with h1 | h1
    · exact Or.inl (plus_of_nonpos h1)
    · exact Or.inr (minus_of_nonneg (h1.trans hX))
  have hq : (Iv.minus X.a = 0 ∨ Iv.plus X.b = 0) ∨ (Iv.minus Y.a = 0 ∨ Iv.plus Y.b = 0) := by
    by_contra hc
    simp only [not_or] at hc
    obtain ⟨⟨h1, h2⟩, h3, h4⟩ := hc
    refine h ⟨⟨?_, ?_⟩, ?_, ?_⟩
    · exact lt_of_not_ge fun h' => h1 (minus_of_nonneg h')
    · exact lt_of_not_ge fun h' => h2 (plus_of_nonpos h')
    · exact lt_of_not_ge fun h' => h3 (minus_of_nonneg h')
    · exact lt_of_not_ge fun h' => h4 (plus_of_nonpos h')
  have n := @plus_nonneg K _ _ _
  have m := @minus_nonneg K _ _ _
  simp only [Iv.mulSum, Iv.mulMax, Iv.kInf, Iv.kSup, Rnd.exact_dn, Rnd.exact_up]
  congr 1
  · apply s <;> first | exact mul_nonneg (n _) (n _) | exact mul_nonneg (m _) (m _) |
      exact mul_nonneg (n _) (m _) | exact mul_nonneg (m _) (n _) | skip
    · rcases hpm with e | e <;> simp [e]
    · rcases hq with (e | e) | e | e <;> simp [e]
  · apply s <;> first | exact mul_nonneg (n _) (n _) | exact mul_nonneg (m _) (m _) |
      exact mul_nonneg (n _) (m _) | exact mul_nonneg (m _) (n _) | skip
    · rcases hq with (e | e) | e | e <;> simp [e]
    · rcases hpm with e | e <;> simp [e]

/-- Kaucher product of two proper intervals has the endpoints of the ordinary product. -/
theorem mulMax_eq_mulCC (X Y : Iv K) (hX : X.a ≤ X.b) (hY : Y.a ≤ Y.b) :
    SameEnds (Iv.mulMax Rnd.exact X Y) (Iv.mulCC Rnd.exact X Y) := by
  have hP := C14_mul_is_kaucher_product ⟨.kaucher, X.a, X.b⟩ Y rfl
  have hR := C11_mul_range ⟨.classical, X.a, X.b⟩ ⟨.classical, Y.a, Y.b⟩ ⟨rfl, hX⟩ ⟨rfl, hY⟩
  simp only [IsKaucherProduct, Between, hX, if_true, min_eq_left, max_eq_right] at hP
  have e1 : (Iv.mul Rnd.exact ⟨.kaucher, X.a, X.b⟩ Y) = Iv.mulMax Rnd.exact X Y := rfl
  have e2 : (Iv.mul Rnd.exact ⟨.classical, X.a, X.b⟩ ⟨.classical, Y.a, Y.b⟩) = Iv.mulCC Rnd.exact X Y := rfl
  rw [e1] at hP
  rw [e2] at hR
  have lo : ∀ x, (∃ y, Y.a ≤ y ∧ y ≤ Y.b ∧ loAt Y x = x * y) ∧ (∃ y, Y.a ≤ y ∧ y ≤ Y.b ∧ hiAt Y x = x * y) ∧
      ∀ y, Y.a ≤ y → y ≤ Y.b → loAt Y x ≤ x * y ∧ x * y ≤ hiAt Y x := by
    intro x
    rcases le_total 0 x with h | h
    · rw [hiAt_eq_loAt, loAt_of_nonneg h, loAt_of_nonneg h]
      exact ⟨⟨Y.a, le_refl _, hY, rfl⟩, ⟨Y.b, hY, le_refl _, rfl⟩, fun y h1 h2 =>
        ⟨mul_le_mul_of_nonneg_left h1 h, mul_le_mul_of_nonneg_left h2 h⟩⟩
    · rw [hiAt_eq_loAt, loAt_of_nonpos h, loAt_of_nonpos h]
      exact ⟨⟨Y.b, hY, le_refl _, rfl⟩, ⟨Y.a, le_refl _, hY, rfl⟩, fun y h1 h2 =>
        ⟨mul_le_mul_of_nonpos_left h2 h, mul_le_mul_of_nonpos_left h1 h⟩⟩
  obtain ⟨hE, ⟨x1, hx1, y1, hy1, q1⟩, x2, hx2, y2, hy2, q2⟩ := hR
  obtain ⟨⟨⟨x3, hx3, q3⟩, l3⟩, ⟨x4, hx4, q4⟩, l4⟩ := hP
  constructor <;> apply le_antisymm
  · exact (l3 ⟨x1, hx1, rfl⟩).trans (((lo x1).2.2 y1 hy1.1 hy1.2).1.trans (le_of_eq q1.symm))
  · obtain ⟨y, h1, h2, e⟩ := (lo x3).1
    rw [q3, e]; exact (hE _ ⟨x3, hx3, y, ⟨h1, h2⟩, rfl⟩).1
  · obtain ⟨y, h1, h2, e⟩ := (lo x4).2.1
    rw [q4, e]; exact (hE _ ⟨x4, hx4, y, ⟨h1, h2⟩, rfl⟩).2
  · exact (le_of_eq q2).trans (((lo x2).2.2 y2 hy2.1 hy2.2).2.trans (l4 ⟨x2, hx2, rfl⟩))

/-- The pairs on which C15 can fail: different classes, both containing zero in the interior. -/
def MixedSpanning (X Y : Iv K) : Prop :=
  X.cls ≠ Y.cls ∧ (X.a < 0 ∧ 0 < X.b) ∧ (Y.a < 0 ∧ 0 < Y.b)

/-- C15, partial: away from pairs of different classes that both contain zero in their interior, the
product does not depend on the order of the factors, and for proper factors it is the exact range,
whatever their classes.  Missing: exactly the excluded pairs, on which the claim fails
(`C15_mul_comm_false`). -/
theorem C15_mul_comm_partial (X Y : Iv K) (hX : WF X) (hY : WF Y) (h : ¬ MixedSpanning X Y) :
    SameEnds (X.mul Rnd.exact Y) (Y.mul Rnd.exact X) ∧
    (Proper X → Proper Y → IsRange (X.mul Rnd.exact Y) (fun z => ∃ x ∈ X, ∃ y ∈ Y, z = x * y)) := by
  have ccomm : ∀ X Y : Iv K, Iv.mulCC Rnd.exact X Y = Iv.mulCC Rnd.exact Y X := by
    intro X Y
    simp only [Iv.mulCC, mul_comm, min_assoc, min_comm, min_left_comm, max_assoc, max_comm, max_left_comm]
  have kcomm : ∀ X Y : Iv K, Iv.mulMax Rnd.exact X Y = Iv.mulMax Rnd.exact Y X := by
    intro X Y
    simp only [Iv.mulMax, Iv.kInf, Iv.kSup, Iv.maxForm, mul_comm, max_comm]
  have form : X.mul Rnd.exact Y = Iv.mulMax Rnd.exact X Y ∨
      (X.cls = .classical ∧ Y.cls = .classical ∧ X.mul Rnd.exact Y = Iv.mulCC Rnd.exact X Y) := by
    cases hx : X.cls <;> cases hy : Y.cls
    · right; exact ⟨rfl, rfl, by simp [Iv.mul, hx, hy]⟩
    · left
      have hm := mulSum_eq_mulMax X Y (hX hx) (fun hh => h ⟨by simp [hx, hy], hh⟩)
      simp [Iv.mul, hx, hy, hm]
    · left; simp [Iv.mul, hx]
    · left; simp [Iv.mul, hx]
  have form' : Y.mul Rnd.exact X = Iv.mulMax Rnd.exact Y X ∨
      (X.cls = .classical ∧ Y.cls = .classical ∧ Y.mul Rnd.exact X = Iv.mulCC Rnd.exact Y X) := by
    cases hx : X.cls <;> cases hy : Y.cls
    · right; exact ⟨rfl, rfl, by simp [Iv.mul, hx, hy]⟩
    · left; simp [Iv.mul, hy]
    · left
      have hm := mulSum_eq_mulMax Y X (hY hy) (fun hh => h ⟨by simp [hx, hy], hh.2, hh.1⟩)
      simp [Iv.mul, hx, hy, hm]
    · left; simp [Iv.mul, hy]
  constructor
  · rcases form with e | ⟨h1, h2, e⟩ <;> rcases form' with e' | ⟨h1', h2', e'⟩
    · rw [e, e', kcomm]; exact ⟨rfl, rfl⟩
    · rw [e, e', ccomm]; exact mulMax_eq_mulCC X Y (hX h1') (hY h2')
    · have := mulMax_eq_mulCC Y X (hY h2) (hX h1)
      rw [e, e', ccomm]; exact ⟨this.1.symm, this.2.symm⟩
    · rw [e, e', ccomm]; exact ⟨rfl, rfl⟩
  · intro pX pY
    have hR := C11_mul_range ⟨.classical, X.a, X.b⟩ ⟨.classical, Y.a, Y.b⟩ ⟨rfl, pX⟩ ⟨rfl, pY⟩
    have e2 : (Iv.mul Rnd.exact ⟨.classical, X.a, X.b⟩ ⟨.classical, Y.a, Y.b⟩) = Iv.mulCC Rnd.exact X Y := rfl
    rw [e2] at hR
    have key : SameEnds (X.mul Rnd.exact Y) (Iv.mulCC Rnd.exact X Y) := by
      rcases form with e | ⟨_, _, e⟩
      · rw [e]; exact mulMax_eq_mulCC X Y pX pY
      · rw [e]; exact ⟨rfl, rfl⟩
    unfold IsRange Encloses at *
    rw [key.1, key.2]
    refine ⟨fun s hs => ?_, hR.2⟩
    have := hR.1 s hs
    rw [Iv.mem_def] at this ⊢
    rw [key.1, key.2]; exact this

example : ¬ MixedSpanning (⟨.classical, -1, 2⟩ : Iv ℚ) ⟨.kaucher, 1, 5⟩ ∧
    (⟨.classical, -1, 2⟩ : Iv ℚ).mul Rnd.exact ⟨.kaucher, 1, 5⟩ = ⟨.kaucher, -5, 10⟩ := by
  norm_num [MixedSpanning, Iv.mul, Iv.mulSum, Iv.kInf, Iv.kSup, Iv.sumForm, Iv.plus, Iv.minus]

/-! ## C16 -/

/-- C16: `inv` raises `ZeroDivisionError` exactly for a zero endpoint, otherwise its endpoints are the
reciprocals of the endpoints in order, rounded outwards. -/
theorem C16_inv_endpoints (R : Rnd K) (X : Iv K) :
    (X.inv R = .error .zeroDivisionError ↔ X.a = 0 ∨ X.b = 0) ∧
    (¬ (X.a = 0 ∨ X.b = 0) → ∃ Y, X.inv R = .ok Y ∧ Y.a = R.dn (1 / X.a) ∧ Y.b = R.up (1 / X.b) ∧
      Y.a ≤ 1 / X.a ∧ 1 / X.b ≤ Y.b) := by
  unfold Iv.inv
  by_cases ha : X.a = 0
  · simp [ha]
  by_cases hb : X.b = 0
  · simp [ha, hb]
  by_cases h : X.b ≤ X.a <;> simp only [ha, hb, h, if_true, if_false, or_self, reduceCtorEq, not_false_eq_true, true_and, forall_true_left]
  · exact ⟨_, rfl, rfl, rfl, R.dn_le _, R.le_up _⟩
  · exact ⟨_, rfl, rfl, rfl, R.dn_le _, R.le_up _⟩

example : (⟨.classical, 0, 4⟩ : Iv ℚ).inv Rnd.exact = .error .zeroDivisionError := by norm_num [Iv.inv]

/-- The class half of C16 as claimed: whatever `inv` returns satisfies the class invariant. -/
def C16_class_statement (X : Iv ℚ) : Prop := ∀ Y, X.inv Rnd.exact = .ok Y → WF Y

/-- C16 (class) is false: the inverse of the improper interval `[4, -2]` is reported as an ordinary
interval with endpoints `1/4 > -1/2`. -/
theorem C16_inv_class_false :
    ∃ X : Iv ℚ, WF X ∧ X.inv Rnd.exact = .ok ⟨.classical, 1/4, -1/2⟩ ∧ ¬ C16_class_statement X := by
  have h : (⟨.kaucher, 4, -2⟩ : Iv ℚ).inv Rnd.exact = .ok ⟨.classical, 1/4, -1/2⟩ := by
    norm_num [Iv.inv]
  refine ⟨⟨.kaucher, 4, -2⟩, by simp [WF], h, fun hs => ?_⟩
  have := hs _ h rfl
  norm_num at this

/-- C16 (class), partial: when the endpoints have the same strict sign the result satisfies the class
invariant for every rounding.  Missing: improper intervals spanning zero, where it fails. -/
theorem C16_inv_class_partial (R : Rnd K) (X Y : Iv K)
    (hs : (0 < X.a ∧ 0 < X.b) ∨ (X.a < 0 ∧ X.b < 0)) (h : X.inv R = .ok Y) : WF Y := by
  unfold Iv.inv at h
  split_ifs at h with h1 h2 h3 <;> cases h
  · intro _
    refine (R.dn_le _).trans (le_trans ?_ (R.le_up _))
    rcases hs with ⟨ha, hb⟩ | ⟨ha, hb⟩
    · exact one_div_le_one_div_of_le hb h3
    · exact one_div_le_one_div_of_neg_of_le ha h3
  · intro h; cases h

example : (⟨.kaucher, 4, 2⟩ : Iv ℚ).inv Rnd.exact = .ok ⟨.classical, 1/4, 1/2⟩ := by norm_num [Iv.inv]

/-! ## C17 -/

/-- C17: `dual`, `opp` are involutions on endpoints, `pro` is idempotent, `opp` is the negated dual,
`dual` reverses inclusion, `pro` contains both endpoints. -/
theorem C17_dual_pro_opp (X Y : Iv K) (hX : WF X) :
    SameEnds X.dual.dual X ∧ SameEnds X.opp.opp X ∧ X.pro.pro = X.pro ∧
    SameEnds X.opp X.dual.neg ∧
    (X.containsIv Y = Y.dual.containsIv X.dual) ∧
    Ordinary X.pro ∧ X.a ∈ X.pro ∧ X.b ∈ X.pro ∧
    (X.pro.a = X.a ∨ X.pro.a = X.b) ∧ (X.pro.b = X.a ∨ X.pro.b = X.b) ∧
    (X.dual.cls = .classical ↔ X.dual.a ≤ X.dual.b) ∧
    (X.opp.cls = .classical ↔ X.opp.a ≤ X.opp.b) := by
  have dd : ∀ Z : Iv K, Z.dual.a = Z.b ∧ Z.dual.b = Z.a := by
    intro Z; unfold Iv.dual; split_ifs <;> simp
  have oo : ∀ Z : Iv K, Z.opp.a = -Z.a ∧ Z.opp.b = -Z.b := by
    intro Z; unfold Iv.opp; split_ifs <;> simp
  refine ⟨?_, ?_, ?_, ?_, ?_, ?_, ?_, ?_, ?_, ?_, ?_, ?_⟩
  · simp [SameEnds, dd]
  · simp [SameEnds, oo]
  · unfold Iv.pro; cases h : X.cls <;> rfl
  · simp [SameEnds, oo, dd, Iv.neg]
  · simp [Iv.containsIv, dd, Bool.and_comm]
  · unfold Iv.pro Ordinary; cases h : X.cls
    · exact ⟨rfl, hX h⟩
    · exact ⟨rfl, min_le_max⟩
  · unfold Iv.pro; cases h : X.cls
    · exact ⟨le_refl _, hX h⟩
    · exact ⟨min_le_left _ _, le_max_left _ _⟩
  · unfold Iv.pro; cases h : X.cls
    · exact ⟨hX h, le_refl _⟩
    · exact ⟨min_le_right _ _, le_max_right _ _⟩
  · unfold Iv.pro; cases h : X.cls
    · exact Or.inl rfl
    · exact min_choice _ _
  · unfold Iv.pro; cases h : X.cls
    · exact Or.inr rfl
    · exact max_choice _ _
  · unfold Iv.dual; split_ifs with h
    · simpa using h
    · simpa using h
  · unfold Iv.opp; split_ifs with h
    · simpa using h
    · simpa using h

example : (⟨.kaucher, 3, 1⟩ : Iv ℚ).dual = ⟨.classical, 1, 3⟩ ∧
    (⟨.kaucher, 3, 1⟩ : Iv ℚ).opp = ⟨.classical, -3, -1⟩ ∧
    (⟨.kaucher, 3, 1⟩ : Iv ℚ).pro = ⟨.classical, 1, 3⟩ := by
  norm_num [Iv.dual, Iv.opp, Iv.pro]

/-! ## C09 -/

/-- The full claim C09 for one pair: a numpy scalar and a Python float as left operand of `/` have the
same outcome. -/
def C09_statement (c : ℚ) (X : Iv ℚ) : Prop := Iv.ufuncDiv Rnd.exact c X = Iv.rdiv Rnd.exact c X

/-- C09 is false: `np.float64(1) / Interval(-1, 1)` silently returns `[-1, 1]`, which does not even
contain `1 / (1/2)`, where `1.0 / Interval(-1, 1)` raises `ValueError`. -/
theorem C09_numpy_div_false :
    ∃ (c : ℚ) (X : Iv ℚ), Ordinary X ∧ ¬ C09_statement c X ∧
      Iv.rdiv Rnd.exact c X = .error .valueError ∧
      ∃ Z, Iv.ufuncDiv Rnd.exact c X = .ok Z ∧ ∃ x ∈ X, x ≠ 0 ∧ ¬ c / x ∈ Z := by
  have h1 : Iv.rdiv Rnd.exact 1 (⟨.classical, -1, 1⟩ : Iv ℚ) = .error .valueError := by
    norm_num [Iv.rdiv, Iv.containsNum]
  have h3 : Iv.ufuncDiv Rnd.exact 1 (⟨.classical, -1, 1⟩ : Iv ℚ) = .ok ⟨.classical, -1, 1⟩ := by
    norm_num [Iv.ufuncDiv, Iv.recip, Except.map, Iv.rmul]
  refine ⟨1, ⟨.classical, -1, 1⟩, ⟨rfl, by norm_num⟩, ?_, h1, _, h3, 1/2, ?_, by norm_num, ?_⟩
  · rw [C09_statement, h1, h3]; simp
  · norm_num [Iv.mem_def]
  · norm_num [Iv.mem_def]

/-- C09, partial: when zero is not in the interval the two outcomes coincide, for every rounding. -/
theorem C09_numpy_div_partial (R : Rnd K) (c : K) (X : Iv K) (h0 : ¬ (0 : K) ∈ X) :
    Iv.ufuncDiv R c X = Iv.rdiv R c X := by
  have hc : X.containsNum 0 = false := by
    simpa using fun h => h0 (containsNum_iff.mp h)
  simp [Iv.ufuncDiv, Iv.rdiv, hc]

example : Iv.ufuncDiv Rnd.exact 1 (⟨.classical, 2, 4⟩ : Iv ℚ) = .ok ⟨.classical, 1/4, 1/2⟩ := by
  norm_num [Iv.ufuncDiv, Iv.recip, Except.map, Iv.rmul]

end IntvalPy
