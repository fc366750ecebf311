import Verif.ProofsLaws
import Verif.PropsObjects
import Verif.PropsArray

/-!
# Laws of the interval operations (C149)

Associativity, neutral elements, subdistributivity and distributivity, dual of a product, monotonicity with respect to
inclusion, for the operators of /repo/intvalpy/kernel/interval_arithmetics.pyx in exact arithmetic.
-/

set_option autoImplicit false
set_option linter.unusedSectionVars false

namespace IntvalPy
open Spec

variable {K : Type*} [Field K] [LinearOrder K] [IsStrictOrderedRing K]

/-- Inclusion of directed intervals. -/
def DirWithin (X Y : Iv K) : Prop := Y.a ≤ X.a ∧ X.b ≤ Y.b

/-- Outside the pairs of C15 the product has the ends of the formula with maxima. -/
theorem mul_kaLo (X Y : Iv K) (hX : WF X) (hY : WF Y) (h : ¬ (X.cls = .classical ∧ MixedSpanning X Y)) :
    (X.mul Rnd.exact Y).a = kaLo X.a X.b Y.a Y.b ∧ (X.mul Rnd.exact Y).b = kaLo X.b X.a Y.b Y.a := by
  have e : SameEnds (X.mul Rnd.exact Y) (Iv.mulMax Rnd.exact X Y) := by
    cases hx : X.cls <;> cases hy : Y.cls
    · have := mulMax_eq_mulCC X Y (hX hx) (hY hy)
      simp only [Iv.mul, hx, hy]
      exact ⟨this.1.symm, this.2.symm⟩
    · have hm := mulSum_eq_mulMax X Y (hX hx) (fun hh => h ⟨hx, by simp [hx, hy], hh⟩)
      simp only [Iv.mul, hx, hy, hm]
      exact ⟨rfl, rfl⟩
    · simp only [Iv.mul, hx]; exact ⟨rfl, rfl⟩
    · simp only [Iv.mul, hx]; exact ⟨rfl, rfl⟩
  exact ⟨e.1, e.2⟩

/-- The class invariant holds for products. -/
theorem mul_WF (X Y : Iv K) (hX : WF X) (hY : WF Y) : WF (X.mul Rnd.exact Y) := by
  intro hc
  cases hx : X.cls <;> cases hy : Y.cls
  · exact (C02_mul_ordinary Rnd.exact X Y ⟨hx, hX hx⟩ ⟨hy, hY hy⟩).2
  all_goals simp [Iv.mul, hx, hy, Iv.mulSum, Iv.mulMax] at hc

/-- The full law: multiplication is associative for all objects with the class invariant. -/
def C149_assoc_statement (K : Type*) [Field K] [LinearOrder K] [IsStrictOrderedRing K] : Prop :=
  ∀ X Y Z : Iv K, WF X → WF Y → WF Z →
    SameEnds ((X.mul Rnd.exact Y).mul Rnd.exact Z) (X.mul Rnd.exact (Y.mul Rnd.exact Z))

/-- C149 is false of the code: with `X = Y = [-1, 2]` of the classical class and `Z = [-1, 5]` of the other one (both
proper) `(X * Y) * Z` is `[-14, 22]` and `X * (Y * Z)` is `[-25, 29]`; the product is `[-10, 20]`. -/
theorem C149_assoc_false : ¬ C149_assoc_statement ℚ := by
  intro h
  have := h ⟨.classical, -1, 2⟩ ⟨.classical, -1, 2⟩ ⟨.kaucher, -1, 5⟩ (fun _ => by norm_num) (fun _ => by norm_num)
    (fun _ => by norm_num)
  revert this
  norm_num [SameEnds, Iv.mul, Iv.mulCC, Iv.mulSum, Iv.mulMax, Iv.kInf, Iv.kSup, Iv.sumForm, Iv.maxForm, Iv.plus, Iv.minus]

/-- C149 (partial): multiplication is associative for proper and improper intervals whenever none of the four products
is one of the pairs of C15 (a classical factor and one of Kaucher class, both with zero inside). -/
theorem C149_assoc_partial (X Y Z : Iv K) (hX : WF X) (hY : WF Y) (hZ : WF Z)
    (h1 : ¬ (X.cls = .classical ∧ MixedSpanning X Y)) (h2 : ¬ (Y.cls = .classical ∧ MixedSpanning Y Z))
    (h3 : ¬ ((X.mul Rnd.exact Y).cls = .classical ∧ MixedSpanning (X.mul Rnd.exact Y) Z))
    (h4 : ¬ (X.cls = .classical ∧ MixedSpanning X (Y.mul Rnd.exact Z))) :
    SameEnds ((X.mul Rnd.exact Y).mul Rnd.exact Z) (X.mul Rnd.exact (Y.mul Rnd.exact Z)) := by
  obtain ⟨a1, b1⟩ := mul_kaLo X Y hX hY h1
  obtain ⟨a2, b2⟩ := mul_kaLo Y Z hY hZ h2
  obtain ⟨a3, b3⟩ := mul_kaLo _ Z (mul_WF X Y hX hY) hZ h3
  obtain ⟨a4, b4⟩ := mul_kaLo X _ hX (mul_WF Y Z hY hZ) h4
  refine ⟨?_, ?_⟩
  · rw [a3, a4, a1, b1, a2, b2]; exact kaLo_assoc _ _ _ _ _ _
  · rw [b3, b4, a1, b1, a2, b2]; exact kaLo_assoc _ _ _ _ _ _

/-- C149: three ordinary intervals, or three intervals of Kaucher class. -/
theorem C149_assoc_same_class (X Y Z : Iv K) (hX : WF X) (hY : WF Y) (hZ : WF Z) (h : X.cls = Y.cls) (h' : Y.cls = Z.cls) :
    SameEnds ((X.mul Rnd.exact Y).mul Rnd.exact Z) (X.mul Rnd.exact (Y.mul Rnd.exact Z)) := by
  have e : ∀ U V : Iv K, U.cls = V.cls → (U.mul Rnd.exact V).cls = V.cls := by
    intro U V huv
    cases hV : V.cls <;> rw [hV] at huv <;> simp [Iv.mul, huv, hV, Iv.mulCC, Iv.mulMax]
  exact C149_assoc_partial X Y Z hX hY hZ (fun hh => hh.2.1 h) (fun hh => hh.2.1 h')
    (fun hh => hh.2.1 ((e X Y h).trans h')) (fun hh => hh.2.1 ((h.trans h').trans (e Y Z h').symm))

/-- C149 (neutral and absorbing elements), for every class of `X`. -/
theorem C149_one_zero (X : Iv K) (hX : WF X) (c : Cls) :
    SameEnds (X.mul Rnd.exact ⟨c, 1, 1⟩) X ∧ SameEnds ((⟨c, 1, 1⟩ : Iv K).mul Rnd.exact X) X ∧
    SameEnds (X.mul Rnd.exact ⟨c, 0, 0⟩) ⟨c, 0, 0⟩ ∧ SameEnds ((⟨c, 0, 0⟩ : Iv K).mul Rnd.exact X) ⟨c, 0, 0⟩ := by
  have w1 : WF (⟨c, 1, 1⟩ : Iv K) := fun _ => le_refl _
  have w0 : WF (⟨c, 0, 0⟩ : Iv K) := fun _ => le_refl _
  have k1 : ∀ u v : K, kaLo u v 1 1 = u := by
    intro u v
    unfold kaLo
    rw [plus_of_nonneg zero_le_one, minus_of_nonneg zero_le_one]
    simp only [mul_one, mul_zero, max_eq_left (plus_nonneg u), max_eq_right (minus_nonneg u)]
    rw [Iv.minus]; ring
  have n1 : ∀ (Y : Iv K) (t : K), 0 ≤ t → ¬ MixedSpanning Y ⟨c, t, t⟩ := fun Y t ht h => absurd h.2.2.1 (not_lt.mpr ht)
  have n2 : ∀ (Y : Iv K) (t : K), 0 ≤ t → ¬ MixedSpanning ⟨c, t, t⟩ Y := fun Y t ht h => absurd h.2.1.1 (not_lt.mpr ht)
  obtain ⟨a1, b1⟩ := mul_kaLo X _ hX w1 (fun h => n1 X 1 zero_le_one h.2)
  obtain ⟨a2, b2⟩ := mul_kaLo _ X w1 hX (fun h => n2 X 1 zero_le_one h.2)
  obtain ⟨a3, b3⟩ := mul_kaLo X _ hX w0 (fun h => n1 X 0 le_rfl h.2)
  obtain ⟨a4, b4⟩ := mul_kaLo _ X w0 hX (fun h => n2 X 0 le_rfl h.2)
  refine ⟨⟨?_, ?_⟩, ⟨?_, ?_⟩, ⟨?_, ?_⟩, ⟨?_, ?_⟩⟩
  · rw [a1, k1]
  · rw [b1, k1]
  · rw [a2, kaLo_comm, k1]
  · rw [b2, kaLo_comm, k1]
  · rw [a3, kaLo_comm, kaLo_zero]
  · rw [b3, kaLo_comm, kaLo_zero]
  · rw [a4, kaLo_zero]
  · rw [b4, kaLo_zero]

/-! ### Distributivity -/

/-- The lower end is superadditive in the second factor when the first is proper. -/
theorem kaLo_add_ge {a b : K} (h : a ≤ b) (c d e f : K) : kaLo a b c d + kaLo a b e f ≤ kaLo a b (c + e) (d + f) := by
  obtain ⟨⟨x, hx, ex⟩, _⟩ := kInf_least (⟨.kaucher, a, b⟩ : Iv K) ⟨.kaucher, c + e, d + f⟩ h
  have l1 := (kInf_least (⟨.kaucher, a, b⟩ : Iv K) ⟨.kaucher, c, d⟩ h).2 ⟨x, hx, rfl⟩
  have l2 := (kInf_least (⟨.kaucher, a, b⟩ : Iv K) ⟨.kaucher, e, f⟩ h).2 ⟨x, hx, rfl⟩
  change kaLo a b (c + e) (d + f) = _ at ex
  change kaLo a b c d ≤ _ at l1
  change kaLo a b e f ≤ _ at l2
  rw [ex]
  rcases le_total 0 x with h0 | h0
  · rw [loAt_of_nonneg h0] at *
    dsimp only at *
    linarith [mul_add x c e]
  · rw [loAt_of_nonpos h0] at *
    dsimp only at *
    linarith [mul_add x d f]

theorem kaLo_neg_both (a b c d : K) : kaLo (-a) (-b) (-c) (-d) = kaLo b a d c := by
  rw [kaLo_neg_left, kaLo_neg_right, neg_neg]

/-- and the upper end subadditive. -/
theorem kaHi_add_le {a b : K} (h : a ≤ b) (c d e f : K) : kaLo b a (d + f) (c + e) ≤ kaLo b a d c + kaLo b a f e := by
  have := kaLo_add_ge h (-d) (-c) (-f) (-e)
  rw [kaLo_neg_right, kaLo_neg_right, ← neg_add d f, ← neg_add c e, kaLo_neg_right] at this
  linarith

/-- Sums have the sums of the ends. -/
theorem add_ends_exact (X Y : Iv K) : (X.add Rnd.exact Y).a = X.a + Y.a ∧ (X.add Rnd.exact Y).b = X.b + Y.b := by
  unfold Iv.add
  cases X.cls <;> exact ⟨rfl, rfl⟩

theorem add_WF (X Y : Iv K) (hX : WF X) (hY : WF Y) : WF (X.add Rnd.exact Y) := by
  intro hc
  rw [(add_ends_exact X Y).1, (add_ends_exact X Y).2]
  cases hx : X.cls
  · have : Y.cls = .classical := by simpa [Iv.add, hx] using hc
    exact add_le_add (hX hx) (hY this)
  · simp [Iv.add, hx] at hc

/-- The product is one the library computes right (C15). -/
def RightPair (X Y : Iv K) : Prop := ¬ (X.cls = .classical ∧ MixedSpanning X Y)

/-- C149 (subdistributivity): for a proper `X`, `X * (Y + Z) ⊆ X * Y + X * Z`; for an improper `X` the other way
round; hence equality for a number `X = [t, t]`. -/
theorem C149_subdistributive (X Y Z : Iv K) (hX : WF X) (hY : WF Y) (hZ : WF Z) (h1 : RightPair X Y) (h2 : RightPair X Z)
    (h3 : RightPair X (Y.add Rnd.exact Z)) :
    (X.a ≤ X.b → DirWithin (X.mul Rnd.exact (Y.add Rnd.exact Z))
      ((X.mul Rnd.exact Y).add Rnd.exact (X.mul Rnd.exact Z))) ∧
    (X.b ≤ X.a → DirWithin ((X.mul Rnd.exact Y).add Rnd.exact (X.mul Rnd.exact Z))
      (X.mul Rnd.exact (Y.add Rnd.exact Z))) ∧
    (X.a = X.b → SameEnds (X.mul Rnd.exact (Y.add Rnd.exact Z))
      ((X.mul Rnd.exact Y).add Rnd.exact (X.mul Rnd.exact Z))) := by
  obtain ⟨a1, b1⟩ := mul_kaLo X Y hX hY h1
  obtain ⟨a2, b2⟩ := mul_kaLo X Z hX hZ h2
  obtain ⟨a3, b3⟩ := mul_kaLo X _ hX (add_WF Y Z hY hZ) h3
  obtain ⟨s1, s2⟩ := add_ends_exact (X.mul Rnd.exact Y) (X.mul Rnd.exact Z)
  obtain ⟨t1, t2⟩ := add_ends_exact Y Z
  unfold DirWithin SameEnds
  rw [s1, s2, a1, b1, a2, b2, a3, b3, t1, t2]
  have p1 : X.a ≤ X.b → _ := fun h => And.intro (kaLo_add_ge h Y.a Y.b Z.a Z.b) (kaHi_add_le h Y.a Y.b Z.a Z.b)
  have p2 : X.b ≤ X.a → _ := fun h => And.intro (kaHi_add_le h Y.b Y.a Z.b Z.a) (kaLo_add_ge h Y.b Y.a Z.b Z.a)
  exact ⟨p1, p2, fun h => ⟨le_antisymm (p2 h.ge).1 (p1 h.le).1, le_antisymm (p1 h.le).2 (p2 h.ge).2⟩⟩

/-- C149 (distributivity): equality when all ends of `Y` and `Z` are of one sign. -/
theorem C149_distributive (X Y Z : Iv K) (hX : WF X) (hY : WF Y) (hZ : WF Z)
    (h : (0 ≤ Y.a ∧ 0 ≤ Y.b ∧ 0 ≤ Z.a ∧ 0 ≤ Z.b) ∨ (Y.a ≤ 0 ∧ Y.b ≤ 0 ∧ Z.a ≤ 0 ∧ Z.b ≤ 0)) :
    SameEnds (X.mul Rnd.exact (Y.add Rnd.exact Z)) ((X.mul Rnd.exact Y).add Rnd.exact (X.mul Rnd.exact Z)) := by
  have np : ∀ W : Iv K, (0 ≤ W.a ∧ 0 ≤ W.b) ∨ (W.a ≤ 0 ∧ W.b ≤ 0) → RightPair X W := by
    rintro W (hw | hw) ⟨_, _, _, q1, q2⟩
    · exact absurd q1 (not_lt.mpr hw.1)
    · exact absurd q2 (not_lt.mpr hw.2)
  obtain ⟨s1, s2⟩ := add_ends_exact (X.mul Rnd.exact Y) (X.mul Rnd.exact Z)
  obtain ⟨t1, t2⟩ := add_ends_exact Y Z
  obtain ⟨a1, b1⟩ := mul_kaLo X Y hX hY (np Y (h.imp (fun h => ⟨h.1, h.2.1⟩) (fun h => ⟨h.1, h.2.1⟩)))
  obtain ⟨a2, b2⟩ := mul_kaLo X Z hX hZ (np Z (h.imp (fun h => h.2.2) (fun h => h.2.2)))
  obtain ⟨a3, b3⟩ := mul_kaLo X _ hX (add_WF Y Z hY hZ) (np _ (by
    rw [t1, t2]
    exact h.imp (fun h => ⟨add_nonneg h.1 h.2.2.1, add_nonneg h.2.1 h.2.2.2⟩)
      (fun h => ⟨add_nonpos h.1 h.2.2.1, add_nonpos h.2.1 h.2.2.2⟩)))
  have lin : ∀ a b c d : K, 0 ≤ c → 0 ≤ d → kaLo a b c d = Iv.plus a * c - Iv.minus a * d := by
    intro a b c d hc hd
    unfold kaLo
    rw [plus_of_nonneg hc, plus_of_nonneg hd, minus_of_nonneg hc, minus_of_nonneg hd, mul_zero, mul_zero,
      max_eq_left (mul_nonneg (plus_nonneg _) hc), max_eq_right (mul_nonneg (minus_nonneg _) hd)]
  have lin' : ∀ a b c d : K, c ≤ 0 → d ≤ 0 → kaLo a b c d = Iv.plus b * c - Iv.minus b * d := by
    intro a b c d hc hd
    have := kaLo_neg_right a b (-c) (-d)
    rw [neg_neg, neg_neg, lin b a (-c) (-d) (by linarith) (by linarith)] at this
    rw [this]; ring
  unfold SameEnds
  rw [s1, s2, a1, b1, a2, b2, a3, b3, t1, t2]
  rcases h with ⟨h1, h2, h3, h4⟩ | ⟨h1, h2, h3, h4⟩
  · rw [lin _ _ _ _ h1 h2, lin _ _ _ _ h3 h4, lin _ _ _ _ h2 h1, lin _ _ _ _ h4 h3,
      lin _ _ _ _ (add_nonneg h1 h3) (add_nonneg h2 h4), lin _ _ _ _ (add_nonneg h2 h4) (add_nonneg h1 h3)]
    constructor <;> ring
  · rw [lin' _ _ _ _ h1 h2, lin' _ _ _ _ h3 h4, lin' _ _ _ _ h2 h1, lin' _ _ _ _ h4 h3,
      lin' _ _ _ _ (add_nonpos h1 h3) (add_nonpos h2 h4), lin' _ _ _ _ (add_nonpos h2 h4) (add_nonpos h1 h3)]
    constructor <;> ring

/-! ### Dual and inclusion -/

theorem dual_ends (X : Iv K) : X.dual.a = X.b ∧ X.dual.b = X.a ∧ WF X.dual := by
  unfold Iv.dual
  split_ifs with h
  · exact ⟨rfl, rfl, fun _ => h⟩
  · exact ⟨rfl, rfl, fun hc => by cases hc⟩

/-- C149 (dual): the dual of a sum or product is the sum or product of the duals. -/
theorem C149_dual (X Y : Iv K) (hX : WF X) (hY : WF Y) (h1 : RightPair X Y) (h2 : RightPair X.dual Y.dual) :
    SameEnds (X.mul Rnd.exact Y).dual (X.dual.mul Rnd.exact Y.dual) ∧
    SameEnds (X.add Rnd.exact Y).dual (X.dual.add Rnd.exact Y.dual) := by
  obtain ⟨x1, x2, x3⟩ := dual_ends X
  obtain ⟨y1, y2, y3⟩ := dual_ends Y
  obtain ⟨a1, b1⟩ := mul_kaLo X Y hX hY h1
  obtain ⟨a2, b2⟩ := mul_kaLo _ _ x3 y3 h2
  obtain ⟨s1, s2⟩ := add_ends_exact X Y
  obtain ⟨t1, t2⟩ := add_ends_exact X.dual Y.dual
  obtain ⟨d1, d2, _⟩ := dual_ends (X.mul Rnd.exact Y)
  obtain ⟨e1, e2, _⟩ := dual_ends (X.add Rnd.exact Y)
  unfold SameEnds
  rw [d1, d2, e1, e2, a1, b1, a2, b2, s1, s2, t1, t2, x1, x2, y1, y2]
  exact ⟨⟨rfl, rfl⟩, rfl, rfl⟩

theorem kaLo_mono {a b a' b' : K} (h1 : a' ≤ a) (h2 : b ≤ b') (c d : K) : kaLo a' b' c d ≤ kaLo a b c d := by
  have p : ∀ u v : K, u ≤ v → Iv.plus u ≤ Iv.plus v := fun u v h => max_le_max h (le_refl _)
  have m : ∀ u v : K, u ≤ v → Iv.minus v ≤ Iv.minus u := by
    intro u v h
    rw [← plus_neg, ← plus_neg]; exact p _ _ (neg_le_neg h)
  unfold kaLo
  exact sub_le_sub
    (max_le_max (mul_le_mul_of_nonneg_right (p _ _ h1) (plus_nonneg _))
      (mul_le_mul_of_nonneg_right (m _ _ h2) (minus_nonneg _)))
    (max_le_max (mul_le_mul_of_nonneg_right (p _ _ h2) (minus_nonneg _))
      (mul_le_mul_of_nonneg_right (m _ _ h1) (plus_nonneg _)))

theorem kaLo_mono₂ {a b a' b' c d c' d' : K} (h1 : a' ≤ a) (h2 : b ≤ b') (h3 : c' ≤ c) (h4 : d ≤ d') :
    kaLo a' b' c' d' ≤ kaLo a b c d := by
  refine (kaLo_mono h1 h2 c' d').trans ?_
  rw [kaLo_comm a b c' d', kaLo_comm a b c d]
  exact kaLo_mono h3 h4 a b

/-- C149 (inclusion): sums and products of directed intervals are monotone with respect to inclusion, improper
intervals included. -/
theorem C149_inclusion (X X' Y Y' : Iv K) (wX : WF X) (wX' : WF X') (wY : WF Y) (wY' : WF Y') (h : RightPair X Y)
    (h' : RightPair X' Y') (hX : DirWithin X X') (hY : DirWithin Y Y') :
    DirWithin (X.mul Rnd.exact Y) (X'.mul Rnd.exact Y') ∧ DirWithin (X.add Rnd.exact Y) (X'.add Rnd.exact Y') := by
  obtain ⟨a1, b1⟩ := mul_kaLo X Y wX wY h
  obtain ⟨a2, b2⟩ := mul_kaLo X' Y' wX' wY' h'
  obtain ⟨s1, s2⟩ := add_ends_exact X Y
  obtain ⟨t1, t2⟩ := add_ends_exact X' Y'
  unfold DirWithin
  rw [a1, b1, a2, b2, s1, s2, t1, t2]
  refine ⟨⟨kaLo_mono₂ hX.1 hX.2 hY.1 hY.2, ?_⟩, add_le_add hX.1 hY.1, add_le_add hX.2 hY.2⟩
  have := kaLo_mono₂ (neg_le_neg hX.2) (neg_le_neg hX.1) hY.1 hY.2
  rw [kaLo_neg_left, kaLo_neg_left] at this
  linarith

/-! ### The operators with which the functions of numpy are compared in C64 -/

/-- The operation on numbers with the name of a numpy function. -/
def pointOp : UFunc → K → K → K
  | .add => (· + ·)
  | .subtract => (· - ·)
  | .multiply => (· * ·)
  | .divide => (· / ·)

/-- C64: the operators enclose all values on points, for every rounding. -/
theorem C64_operator (R : Rnd K) (f : UFunc) (X Y Z : Iv K) (hX : Ordinary X) (hY : Ordinary Y)
    (h : operator R f X Y = .ok Z) (x y : K) (hx : x ∈ X) (hy : y ∈ Y) : pointOp f x y ∈ Z := by
  cases f with
  | add => cases h; exact C01_add_encloses R X Y _ ⟨x, hx, y, hy, rfl⟩
  | subtract => cases h; exact C01_sub_encloses R X Y _ ⟨x, hx, y, hy, rfl⟩
  | multiply => cases h; exact C02_mul_encloses R X Y hX hY _ ⟨x, hx, y, hy, rfl⟩
  | divide => exact C03_div_encloses R X Y Z hX hY h _ ⟨x, hx, y, hy, rfl⟩

example : operator Rnd.exact .divide (⟨.classical, 1, 2⟩ : Iv ℚ) ⟨.classical, 4, 8⟩ = .ok ⟨.classical, 1/8, 1/2⟩ ∧
    operator Rnd.exact .subtract (⟨.classical, 1, 2⟩ : Iv ℚ) ⟨.classical, 4, 8⟩ = .ok ⟨.classical, -7, -2⟩ := by
  decide +kernel

/-! ### Examples -/

/-- The values of the counterexample. -/
example : ((⟨.classical, -1, 2⟩ : Iv ℚ).mul Rnd.exact ⟨.classical, -1, 2⟩).mul Rnd.exact ⟨.kaucher, -1, 5⟩ =
      ⟨.kaucher, -14, 22⟩ ∧
    (⟨.classical, -1, 2⟩ : Iv ℚ).mul Rnd.exact ((⟨.classical, -1, 2⟩ : Iv ℚ).mul Rnd.exact ⟨.kaucher, -1, 5⟩) =
      ⟨.kaucher, -25, 29⟩ ∧
    ((⟨.classical, -1, 2⟩ : Iv ℚ).mul Rnd.exact ⟨.classical, -1, 2⟩).mul Rnd.exact ⟨.classical, -1, 5⟩ =
      ⟨.classical, -10, 20⟩ := by
  decide +kernel

/-- The hypotheses of associativity hold for an improper factor around zero, an ordinary one and a Kaucher one. -/
example : ¬ ((⟨.kaucher, 3, -2⟩ : Iv ℚ).cls = .classical ∧ MixedSpanning (⟨.kaucher, 3, -2⟩ : Iv ℚ) ⟨.classical, 1, 2⟩) ∧
    ((⟨.kaucher, 3, -2⟩ : Iv ℚ).mul Rnd.exact ⟨.classical, 1, 2⟩).mul Rnd.exact ⟨.kaucher, 5, -1⟩ =
      ⟨.kaucher, 15, -10⟩ ∧
    (⟨.kaucher, 3, -2⟩ : Iv ℚ).mul Rnd.exact ((⟨.classical, 1, 2⟩ : Iv ℚ).mul Rnd.exact ⟨.kaucher, 5, -1⟩) =
      ⟨.kaucher, 15, -10⟩ :=
  ⟨fun h => (by cases h.1), by decide +kernel, by decide +kernel⟩

/-- Subdistributivity is strict for `X = [1, 2]`, `Y = [1, 1]`, `Z = [-1, -1]`; distributivity for `Y = [1, 2]`,
`Z = [0, 3]` and `X` around zero. -/
example : (⟨.classical, 1, 2⟩ : Iv ℚ).mul Rnd.exact ((⟨.classical, 1, 1⟩ : Iv ℚ).add Rnd.exact ⟨.classical, -1, -1⟩) =
      ⟨.classical, 0, 0⟩ ∧
    ((⟨.classical, 1, 2⟩ : Iv ℚ).mul Rnd.exact ⟨.classical, 1, 1⟩).add Rnd.exact
      ((⟨.classical, 1, 2⟩ : Iv ℚ).mul Rnd.exact ⟨.classical, -1, -1⟩) = ⟨.classical, -1, 1⟩ ∧
    (⟨.classical, -1, 2⟩ : Iv ℚ).mul Rnd.exact ((⟨.classical, 1, 2⟩ : Iv ℚ).add Rnd.exact ⟨.classical, 0, 3⟩) =
      ⟨.classical, -5, 10⟩ ∧
    ((⟨.classical, -1, 2⟩ : Iv ℚ).mul Rnd.exact ⟨.classical, 1, 2⟩).add Rnd.exact
      ((⟨.classical, -1, 2⟩ : Iv ℚ).mul Rnd.exact ⟨.classical, 0, 3⟩) = ⟨.classical, -5, 10⟩ := by
  decide +kernel

/-- `RightPair` and `DirWithin` hold for `[2, 1] ⊆ [0, 3]` (improper in proper) and `[1, 2] ⊆ [1, 4]`. -/
example : RightPair (⟨.kaucher, 2, 1⟩ : Iv ℚ) ⟨.classical, 1, 2⟩ ∧ DirWithin (⟨.kaucher, 2, 1⟩ : Iv ℚ) ⟨.classical, 0, 3⟩ ∧
    RightPair (⟨.classical, 0, 3⟩ : Iv ℚ) ⟨.classical, 1, 4⟩ ∧ DirWithin (⟨.classical, 1, 2⟩ : Iv ℚ) ⟨.classical, 1, 4⟩ ∧
    (⟨.kaucher, 2, 1⟩ : Iv ℚ).mul Rnd.exact ⟨.classical, 1, 2⟩ = ⟨.kaucher, 2, 2⟩ ∧
    (⟨.classical, 0, 3⟩ : Iv ℚ).mul Rnd.exact ⟨.classical, 1, 4⟩ = ⟨.classical, 0, 12⟩ :=
  ⟨fun h => (by cases h.1), by norm_num [DirWithin], fun h => h.2.1 rfl, by norm_num [DirWithin], by decide +kernel,
    by decide +kernel⟩

end IntvalPy
