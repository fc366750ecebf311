import Verif.PropsLaws
import Verif.ProofsFloat
import Verif.PropsExpr

/-!
# Laws that survive rounding (C156)

/repo/intvalpy/kernel/interval_arithmetics.pyx:193-194, 392-441, 530-640.
-/

set_option autoImplicit false
set_option linter.unusedSectionVars false

namespace IntvalPy
open Spec

variable {K : Type*} [Field K] [LinearOrder K] [IsStrictOrderedRing K]

/-- Rounding that treats both signs alike, as the directed modes of IEEE 754 do. -/
def Rnd.Odd (R : Rnd K) : Prop := ∀ x, R.dn (-x) = -R.up x

theorem Rnd.Odd.up {R : Rnd K} (h : R.Odd) (x : K) : R.up (-x) = -R.dn x := by
  have := h (-x)
  rw [neg_neg] at this
  rw [this, neg_neg]

/-- Directed rounding to binary64 is odd, and so is exact arithmetic. -/
theorem b64_odd [FloorRing K] : (Rnd.b64 : Rnd K).Odd := fun x => by
  show floorTo (-x) = -ceilTo x
  rw [ceilTo_eq, neg_neg]

theorem exact_odd : (Rnd.exact : Rnd K).Odd := fun x => by simp

theorem ordinary_neg {X : Iv K} (hX : Ordinary X) : Ordinary X.neg := ⟨hX.1, neg_le_neg hX.2⟩

theorem mul_ordinary_eq (R : Rnd K) {X Y : Iv K} (hX : Ordinary X) (hY : Ordinary Y) : X.mul R Y = Iv.mulCC R X Y := by
  simp only [Iv.mul, hX.1, hY.1]

/-- C156: whatever the rounding, sums and products of ordinary intervals do not depend on the order of the operands, and sums of any
intervals have the same ends in both orders. -/
theorem C156_commutative (R : Rnd K) (X Y : Iv K) :
    SameEnds (X.add R Y) (Y.add R X) ∧ (Ordinary X → Ordinary Y → X.add R Y = Y.add R X ∧ X.mul R Y = Y.mul R X) := by
  refine ⟨?_, fun hX hY => ⟨?_, ?_⟩⟩
  · have e : ∀ U V : Iv K, (U.add R V).a = R.dn (U.a + V.a) ∧ (U.add R V).b = R.up (U.b + V.b) := fun U V => by
      unfold Iv.add
      split <;> exact ⟨rfl, rfl⟩
    rw [SameEnds, (e X Y).1, (e X Y).2, (e Y X).1, (e Y X).2, add_comm X.a, add_comm X.b]
    exact ⟨rfl, rfl⟩
  · simp only [Iv.add, hX.1, hY.1, add_comm]
  · rw [mul_ordinary_eq R hX hY, mul_ordinary_eq R hY hX]
    simp only [Iv.mulCC, mul_comm Y.a, mul_comm Y.b, Iv.mk.injEq, true_and]
    constructor
    · rw [min_assoc (R.dn (X.a * Y.a)) (R.dn (X.a * Y.b)), min_comm (R.dn (X.a * Y.b)), ← min_assoc]
    · rw [max_assoc (R.up (X.a * Y.a)) (R.up (X.a * Y.b)), max_comm (R.up (X.a * Y.b)), ← max_assoc]

/-- C156: with odd rounding, changing signs commutes with the operations. -/
theorem C156_signs (R : Rnd K) (hR : R.Odd) (X Y : Iv K) (hX : Ordinary X) (hY : Ordinary Y) :
    (X.sub R Y).neg = Y.sub R X ∧ X.add R Y.neg = X.sub R Y ∧ X.neg.add R Y.neg = (X.add R Y).neg ∧
    X.neg.mul R Y = (X.mul R Y).neg ∧ X.mul R Y.neg = (X.mul R Y).neg ∧ X.neg.mul R Y.neg = X.mul R Y := by
  have hU := hR.up
  have hD : ∀ x, R.dn (-x) = -R.up x := hR
  have left : ∀ U V : Iv K, Ordinary U → Ordinary V → U.neg.mul R V = (U.mul R V).neg := by
    intro U V oU oV
    rw [mul_ordinary_eq R (ordinary_neg oU) oV, mul_ordinary_eq R oU oV]
    simp only [Iv.mulCC, Iv.neg, neg_mul, hD, hU, Iv.mk.injEq, true_and, min_neg_neg, max_neg_neg, neg_inj]
    constructor
    · rw [max_assoc, max_comm (max _ _) (max _ _), ← max_assoc]
    · rw [min_assoc, min_comm (min _ _) (min _ _), ← min_assoc]
  have comm := fun U V oU oV => ((C156_commutative R U V).2 oU oV).2
  have right : ∀ U V : Iv K, Ordinary U → Ordinary V → U.mul R V.neg = (U.mul R V).neg := fun U V oU oV => by
    rw [comm U V.neg oU (ordinary_neg oV), left V U oV oU, comm V U oV oU]
  have nn : ∀ U : Iv K, U.neg.neg = U := fun U => by simp [Iv.neg]
  refine ⟨?_, ?_, ?_, left X Y hX hY, right X Y hX hY, ?_⟩
  · simp only [Iv.sub, Iv.neg, hX.1, hY.1, ← hD, ← hU, neg_sub]
  · simp only [Iv.sub, Iv.add, Iv.neg, hX.1, hY.1, sub_eq_add_neg]
  · simp only [Iv.add, Iv.neg, hX.1, hY.1, ← hD, ← hU, neg_add]
  · rw [left X Y.neg hX (ordinary_neg hY), right X Y hX hY, nn]

/-- The full property C156 for the remaining laws: sums and products are associative and subdistributive. -/
def C156_statement (R : Rnd K) : Prop :=
  ∀ X Y Z : Iv K, Ordinary X → Ordinary Y → Ordinary Z →
    (X.add R Y).add R Z = X.add R (Y.add R Z) ∧ (X.mul R Y).mul R Z = X.mul R (Y.mul R Z) ∧
    Sub (X.mul R (Y.add R Z)) ((X.mul R Y).add R (X.mul R Z))

/-- C156 (partial): every way to put the brackets gives an enclosure of all values of the expression, with any rounding; the rounded
value of `X * Y + X * Z` contains the exact value of `X * (Y + Z)`.  Missing from `C156_statement`: equality of the ways, and the
inclusion of the rounded `X * (Y + Z)`; both are false for doubles. -/
theorem C156_partial (R : Rnd K) (X Y Z : Iv K) (hX : Ordinary X) (hY : Ordinary Y) (hZ : Ordinary Z) :
    (∀ x ∈ X, ∀ y ∈ Y, ∀ z ∈ Z, x + y + z ∈ (X.add R Y).add R Z ∧ x + y + z ∈ X.add R (Y.add R Z) ∧
      x * y * z ∈ (X.mul R Y).mul R Z ∧ x * y * z ∈ X.mul R (Y.mul R Z) ∧
      x * (y + z) ∈ X.mul R (Y.add R Z) ∧ x * (y + z) ∈ (X.mul R Y).add R (X.mul R Z)) ∧
    Sub (X.mul Rnd.exact (Y.add Rnd.exact Z)) ((X.mul R Y).add R (X.mul R Z)) := by
  have oXY := C02_mul_ordinary R X Y hX hY
  have oXZ := C02_mul_ordinary R X Z hX hZ
  have oYZ := C02_mul_ordinary R Y Z hY hZ
  have aYZ := (C01_add_sub_ordinary R Y Z hY hZ).1
  have main : ∀ x ∈ X, ∀ y ∈ Y, ∀ z ∈ Z, x + y + z ∈ (X.add R Y).add R Z ∧ x + y + z ∈ X.add R (Y.add R Z) ∧
      x * y * z ∈ (X.mul R Y).mul R Z ∧ x * y * z ∈ X.mul R (Y.mul R Z) ∧
      x * (y + z) ∈ X.mul R (Y.add R Z) ∧ x * (y + z) ∈ (X.mul R Y).add R (X.mul R Z) := by
    intro x hx y hy z hz
    have mxy := C02_mul_encloses R X Y hX hY _ ⟨x, hx, y, hy, rfl⟩
    have mxz := C02_mul_encloses R X Z hX hZ _ ⟨x, hx, z, hz, rfl⟩
    have myz := C02_mul_encloses R Y Z hY hZ _ ⟨y, hy, z, hz, rfl⟩
    have axy := C01_add_encloses R X Y _ ⟨x, hx, y, hy, rfl⟩
    have ayz := C01_add_encloses R Y Z _ ⟨y, hy, z, hz, rfl⟩
    exact ⟨C01_add_encloses R _ _ _ ⟨_, axy, z, hz, rfl⟩, C01_add_encloses R _ _ _ ⟨x, hx, _, ayz, add_assoc x y z⟩,
      C02_mul_encloses R _ _ oXY hZ _ ⟨_, mxy, z, hz, rfl⟩, C02_mul_encloses R _ _ hX oYZ _ ⟨x, hx, _, myz, mul_assoc x y z⟩,
      C02_mul_encloses R _ _ hX aYZ _ ⟨x, hx, _, ayz, rfl⟩, C01_add_encloses R _ _ _ ⟨_, mxy, _, mxz, mul_add x y z⟩⟩
  refine ⟨main, ?_⟩
  have aE := (C01_add_sub_ordinary Rnd.exact Y Z hY hZ).1
  obtain ⟨_, ⟨x1, hx1, s1, hs1, e1⟩, ⟨x2, hx2, s2, hs2, e2⟩⟩ := C11_mul_range X _ hX aE
  have split : ∀ s ∈ Y.add Rnd.exact Z, ∃ y ∈ Y, ∃ z ∈ Z, s = y + z := by
    intro s hs
    have ee : Y.add Rnd.exact Z = ⟨.classical, Y.a + Z.a, Y.b + Z.b⟩ := by simp [Iv.add, hY.1, hZ.1]
    rw [ee, Iv.mem_def] at hs
    dsimp only at hs
    rcases le_total (s - Z.a) Y.b with h | h
    · exact ⟨s - Z.a, ⟨by linarith [hs.1], h⟩, Z.a, ⟨le_refl _, hZ.2⟩, by ring⟩
    · exact ⟨Y.b, ⟨hY.2, le_refl _⟩, s - Y.b, ⟨by linarith, by linarith [hs.2]⟩, by ring⟩
  obtain ⟨y1, hy1, z1, hz1, rfl⟩ := split s1 hs1
  obtain ⟨y2, hy2, z2, hz2, rfl⟩ := split s2 hs2
  have m1 := (main x1 hx1 y1 hy1 z1 hz1).2.2.2.2.2
  have m2 := (main x2 hx2 y2 hy2 z2 hz2).2.2.2.2.2
  intro s hs
  exact ⟨(e1 ▸ m1.1).trans hs.1, hs.2.trans (e2 ▸ m2.2)⟩

/-- C156 is false for doubles: with `X = 3/2`, `Y = 1`, `Z = 2 ^ (-54)` the value of `X * (Y + Z)` is not contained in that of
`X * Y + X * Z`, and `(Y + Z) + Z`, `Y + (Z + Z)` differ for `Z = 2 ^ (-53)`. -/
theorem C156_false : ¬ C156_statement (Rnd.b64 : Rnd ℚ) ∧
    (∃ X Y Z : Iv ℚ, Ordinary X ∧ Ordinary Y ∧ Ordinary Z ∧ ¬ Sub (X.mul Rnd.b64 (Y.add Rnd.b64 Z))
      ((X.mul Rnd.b64 Y).add Rnd.b64 (X.mul Rnd.b64 Z))) ∧
    (∃ X Y Z : Iv ℚ, Ordinary X ∧ Ordinary Y ∧ Ordinary Z ∧
      (X.add Rnd.b64 Y).add Rnd.b64 Z ≠ X.add Rnd.b64 (Y.add Rnd.b64 Z)) := by
  have h1 : ∃ X Y Z : Iv ℚ, Ordinary X ∧ Ordinary Y ∧ Ordinary Z ∧ ¬ Sub (X.mul Rnd.b64 (Y.add Rnd.b64 Z))
      ((X.mul Rnd.b64 Y).add Rnd.b64 (X.mul Rnd.b64 Z)) := by
    refine ⟨⟨.classical, 3/2, 3/2⟩, ⟨.classical, 1, 1⟩, ⟨.classical, 1 / 2 ^ 54, 1 / 2 ^ 54⟩, ⟨rfl, le_refl _⟩, ⟨rfl, le_refl _⟩,
      ⟨rfl, le_refl _⟩, fun h => ?_⟩
    have hb := (h _ (memR (C02_mul_ordinary Rnd.b64 _ _ ⟨rfl, le_refl _⟩ (C01_add_sub_ordinary Rnd.b64 _ _ ⟨rfl, le_refl _⟩
      ⟨rfl, le_refl _⟩).1))).2
    revert hb
    decide +kernel
  exact ⟨fun h => by obtain ⟨X, Y, Z, hX, hY, hZ, hn⟩ := h1; exact hn (h X Y Z hX hY hZ).2.2, h1,
    ⟨.classical, 1, 1⟩, ⟨.classical, 1 / 2 ^ 53, 1 / 2 ^ 53⟩, ⟨.classical, 1 / 2 ^ 53, 1 / 2 ^ 53⟩, ⟨rfl, le_refl _⟩, ⟨rfl, le_refl _⟩,
    ⟨rfl, le_refl _⟩, by decide +kernel⟩

/-- Signs and orders in double arithmetic: `-[1/10, 3] * [7, 11]`. -/
example : (⟨.classical, 1/10, 3⟩ : Iv ℚ).neg.mul Rnd.b64 ⟨.classical, 7, 11⟩ =
    ((⟨.classical, 7, 11⟩ : Iv ℚ).mul Rnd.b64 ⟨.classical, 1/10, 3⟩).neg := by decide +kernel

end IntvalPy
