import Verif.PropsObjects
import Verif.PropsExpr

/-!
# Widths, magnitudes and distances of results (C153)

/repo/intvalpy/kernel/interval_arithmetics.pyx:121-147 (`wid`, `rad`, `mid`, `mig`, `mag`), 530-640 (operations),
/repo/intvalpy/kernel/utils.py:15-37 (`dist`).  How the characteristics of the result of an operation follow from
those of the operands, in exact arithmetic; a rounded result contains the exact one.
-/

set_option autoImplicit false
set_option linter.unusedSectionVars false

namespace IntvalPy
open Spec

variable {K : Type*} [Field K] [LinearOrder K] [IsStrictOrderedRing K]

theorem wid_exact (X : Iv K) : X.wid Rnd.exact = X.b - X.a := by simp [Iv.wid, Rnd.exact_nr]

theorem mid_exact (X : Iv K) : X.mid Rnd.exact = (X.a + X.b) / 2 := by
  simp only [Iv.mid, Rnd.exact_nr, id]; ring

theorem dist_le {X Y : Iv K} {r : K} : dist X Y ≤ r ↔ |X.a - Y.a| ≤ r ∧ |X.b - Y.b| ≤ r := max_le_iff

/-- C153: sums and differences.  The width is the sum of the widths, the midpoint follows the operation, the magnitude
is at most the sum, and the distance of sums is at most the sum of the distances. -/
theorem C153_sum (X Y X' Y' : Iv K) (hX : Ordinary X) (hY : Ordinary Y) (hX' : Ordinary X') (hY' : Ordinary Y') :
    (X.add Rnd.exact Y).wid Rnd.exact = X.wid Rnd.exact + Y.wid Rnd.exact ∧
    (X.sub Rnd.exact Y).wid Rnd.exact = X.wid Rnd.exact + Y.wid Rnd.exact ∧
    (X.add Rnd.exact Y).mid Rnd.exact = X.mid Rnd.exact + Y.mid Rnd.exact ∧
    (X.sub Rnd.exact Y).mid Rnd.exact = X.mid Rnd.exact - Y.mid Rnd.exact ∧
    (X.add Rnd.exact Y).mag ≤ X.mag + Y.mag ∧ (X.sub Rnd.exact Y).mag ≤ X.mag + Y.mag ∧
    dist (X.add Rnd.exact Y) (X'.add Rnd.exact Y) = dist X X' ∧
    dist (X.add Rnd.exact Y) (X'.add Rnd.exact Y') ≤ dist X X' + dist Y Y' ∧
    dist (X.sub Rnd.exact Y) (X'.sub Rnd.exact Y') ≤ dist X X' + dist Y Y' := by
  have ea : ∀ U V : Iv K, Ordinary U → Ordinary V → U.add Rnd.exact V = ⟨.classical, U.a + V.a, U.b + V.b⟩ :=
    fun U V h h' => by simp [Iv.add, h.1, h'.1]
  have es : ∀ U V : Iv K, Ordinary U → Ordinary V → U.sub Rnd.exact V = ⟨.classical, U.a - V.b, U.b - V.a⟩ :=
    fun U V h h' => by simp [Iv.sub, h.1, h'.1]
  rw [ea X Y hX hY, es X Y hX hY, ea X' Y hX' hY, ea X' Y' hX' hY', es X' Y' hX' hY']
  simp only [wid_exact, mid_exact]
  refine ⟨by ring, by ring, by ring, by ring, ?_, ?_, ?_, ?_, ?_⟩
  · simp only [Iv.mag]
    exact max_le ((abs_add_le _ _).trans (add_le_add (le_max_left _ _) (le_max_left _ _)))
      ((abs_add_le _ _).trans (add_le_add (le_max_right _ _) (le_max_right _ _)))
  · simp only [Iv.mag]
    exact max_le ((abs_sub _ _).trans (add_le_add (le_max_left _ _) (le_max_right _ _)))
      ((abs_sub _ _).trans (add_le_add (le_max_right _ _) (le_max_left _ _)))
  · simp only [dist, cheb, add_sub_add_right_eq_sub]
  · rw [dist_le]
    simp only [dist, cheb]
    refine ⟨?_, ?_⟩
    · rw [add_sub_add_comm]
      exact (abs_add_le _ _).trans (add_le_add (le_max_left _ _) (le_max_left _ _))
    · rw [add_sub_add_comm]
      exact (abs_add_le _ _).trans (add_le_add (le_max_right _ _) (le_max_right _ _))
  · rw [dist_le]
    simp only [dist, cheb]
    refine ⟨?_, ?_⟩
    · rw [sub_sub_sub_comm]
      exact (abs_sub _ _).trans (add_le_add (le_max_left _ _) (le_max_right _ _))
    · rw [sub_sub_sub_comm]
      exact (abs_sub _ _).trans (add_le_add (le_max_right _ _) (le_max_left _ _))

/-- C153: multiples. -/
theorem C153_multiple (c : K) (X Y : Iv K) (hX : Ordinary X) (hY : Ordinary Y) :
    (Iv.rmul Rnd.exact c X).wid Rnd.exact = |c| * X.wid Rnd.exact ∧
    (Iv.rmul Rnd.exact c X).mid Rnd.exact = c * X.mid Rnd.exact ∧
    (Iv.rmul Rnd.exact c X).mag = |c| * X.mag ∧
    dist (Iv.rmul Rnd.exact c X) (Iv.rmul Rnd.exact c Y) = |c| * dist X Y := by
  have key : ∀ U : Iv K, Ordinary U → Iv.rmul Rnd.exact c U =
      if 0 ≤ c then ⟨.classical, c * U.a, c * U.b⟩ else ⟨.classical, c * U.b, c * U.a⟩ := by
    intro U hU
    simp only [Iv.rmul, hU.1, Rnd.exact_dn, Rnd.exact_up, id]
    split_ifs with h
    · have := mul_le_mul_of_nonneg_left hU.2 h
      rw [min_eq_left this, max_eq_right this]
    · have := mul_le_mul_of_nonpos_left hU.2 (not_le.mp h).le
      rw [min_eq_right this, max_eq_left this]
  rw [key X hX, key Y hY]
  simp only [wid_exact, mid_exact]
  split_ifs with h
  · rw [abs_of_nonneg h]
    refine ⟨by ring, by ring, ?_, ?_⟩
    · simp only [Iv.mag, abs_mul, abs_of_nonneg h]
      rw [mul_max_of_nonneg _ _ h]
    · simp only [dist, cheb, ← mul_sub, abs_mul, abs_of_nonneg h]
      rw [mul_max_of_nonneg _ _ h]
  · have hn := (not_le.mp h).le
    rw [abs_of_nonpos hn]
    refine ⟨by ring, by ring, ?_, ?_⟩
    · simp only [Iv.mag, abs_mul, abs_of_nonpos hn]
      rw [mul_max_of_nonneg _ _ (neg_nonneg.mpr hn), max_comm]
    · simp only [dist, cheb, ← mul_sub, abs_mul, abs_of_nonpos hn]
      rw [mul_max_of_nonneg _ _ (neg_nonneg.mpr hn), max_comm]

theorem wid_nonneg_exact {X : Iv K} (hX : Ordinary X) : 0 ≤ X.wid Rnd.exact := by
  rw [wid_exact]; linarith [hX.2]

theorem abs_sub_le_wid {X : Iv K} {x y : K} (hx : x ∈ X) (hy : y ∈ X) : |x - y| ≤ X.wid Rnd.exact := by
  rw [wid_exact, abs_le]
  rw [Iv.mem_def] at hx hy
  constructor <;> linarith [hx.1, hx.2, hy.1, hy.2]

/-- C153: products.  `mag` and `mig` are multiplicative; the width is at least `mag X · wid Y` and `wid X · mag Y` and at
most their sum; the distance of products with a common factor is at most its magnitude times the distance. -/
theorem C153_product (X Y Z : Iv K) (hX : Ordinary X) (hY : Ordinary Y) (hZ : Ordinary Z) :
    (X.mul Rnd.exact Y).mag = X.mag * Y.mag ∧ (X.mul Rnd.exact Y).mig = X.mig * Y.mig ∧
    max (X.mag * Y.wid Rnd.exact) (X.wid Rnd.exact * Y.mag) ≤ (X.mul Rnd.exact Y).wid Rnd.exact ∧
    (X.mul Rnd.exact Y).wid Rnd.exact ≤ X.mag * Y.wid Rnd.exact + X.wid Rnd.exact * Y.mag ∧
    dist (X.mul Rnd.exact Y) (X.mul Rnd.exact Z) ≤ X.mag * dist Y Z := by
  have oP := C02_mul_ordinary Rnd.exact X Y hX hY
  obtain ⟨enc, ⟨xa, hxa, ya, hya, ea⟩, ⟨xb, hxb, yb, hyb, eb⟩⟩ := C11_mul_range X Y hX hY
  obtain ⟨cX, ⟨xm, hxm, exm⟩, ⟨xM, hxM, exM⟩, _⟩ := C20_characteristics X hX
  obtain ⟨cY, ⟨ym, hym, eym⟩, ⟨yM, hyM, eyM⟩, _⟩ := C20_characteristics Y hY
  obtain ⟨cP, _, _, _⟩ := C20_characteristics _ oP
  have X0 : 0 ≤ X.mag := exM ▸ abs_nonneg _
  have Y0 : 0 ≤ Y.mag := eyM ▸ abs_nonneg _
  have x0 : 0 ≤ X.mig := exm ▸ abs_nonneg _
  have y0 : 0 ≤ Y.mig := eym ▸ abs_nonneg _
  have bound : ∀ x ∈ X, ∀ y ∈ Y, |x * y| ≤ X.mag * Y.mag ∧ X.mig * Y.mig ≤ |x * y| := fun x hx y hy => by
    rw [abs_mul]
    exact ⟨mul_le_mul (cX x hx).2 (cY y hy).2 (abs_nonneg _) X0, mul_le_mul (cX x hx).1 (cY y hy).1 y0 (abs_nonneg _)⟩
  refine ⟨le_antisymm ?_ ?_, le_antisymm ?_ ?_, max_le ?_ ?_, ?_, ?_⟩
  · refine max_le ?_ ?_
    · rw [ea]; exact (bound _ hxa _ hya).1
    · rw [eb]; exact (bound _ hxb _ hyb).1
  · have := (cP _ (enc _ ⟨xM, hxM, yM, hyM, rfl⟩)).2
    rwa [abs_mul, exM, eyM] at this
  · have := (cP _ (enc _ ⟨xm, hxm, ym, hym, rfl⟩)).1
    rwa [abs_mul, exm, eym] at this
  · by_cases hz : (X.mul Rnd.exact Y).containsNum 0 = true
    · have hm : (X.mul Rnd.exact Y).mig = 0 := by unfold Iv.mig; rw [if_pos hz]
      rw [hm]
      rw [containsNum_iff] at hz
      by_contra hc
      have hpos : 0 < X.mig * Y.mig := not_le.mp hc
      have px : 0 < X.mig := pos_of_mul_pos_left hpos y0
      have py : 0 < Y.mig := pos_of_mul_pos_right hpos x0
      have sgn : ∀ (U : Iv K), Ordinary U → 0 < U.mig → (∀ u ∈ U, 0 < u) ∨ ∀ u ∈ U, u < 0 := by
        intro U hU hp
        have n0 : ¬ (0 : K) ∈ U := fun h0 => by
          have := ((C20_characteristics U hU).1 0 h0).1
          rw [abs_zero] at this
          exact absurd hp (not_lt.mpr this)
        rcases not_mem_zero_cases hU.2 n0 with h | h
        · exact Or.inl fun u hu => h.trans_le hu.1
        · exact Or.inr fun u hu => lt_of_le_of_lt hu.2 h
      have h1 : xa * ya ≤ 0 := ea ▸ hz.1
      have h2 : 0 ≤ xb * yb := eb ▸ hz.2
      rcases sgn X hX px with sx | sx <;> rcases sgn Y hY py with sy | sy
      · exact absurd (mul_pos (sx _ hxa) (sy _ hya)) (not_lt.mpr h1)
      · exact absurd (mul_neg_of_pos_of_neg (sx _ hxb) (sy _ hyb)) (not_lt.mpr h2)
      · exact absurd (mul_neg_of_neg_of_pos (sx _ hxb) (sy _ hyb)) (not_lt.mpr h2)
      · exact absurd (mul_pos_of_neg_of_neg (sx _ hxa) (sy _ hya)) (not_lt.mpr h1)
    · unfold Iv.mig
      rw [if_neg hz]
      refine le_min ?_ ?_
      · rw [ea]; exact (bound _ hxa _ hya).2
      · rw [eb]; exact (bound _ hxb _ hyb).2
  · have h1 := abs_sub_le_wid (enc _ ⟨xM, hxM, Y.b, memR hY, rfl⟩) (enc _ ⟨xM, hxM, Y.a, memL hY, rfl⟩)
    rw [← mul_sub, abs_mul, exM, abs_of_nonneg (by linarith [hY.2])] at h1
    rwa [wid_exact Y]
  · have h1 := abs_sub_le_wid (enc _ ⟨X.b, memR hX, yM, hyM, rfl⟩) (enc _ ⟨X.a, memL hX, yM, hyM, rfl⟩)
    rw [← sub_mul, abs_mul, eyM, abs_of_nonneg (by linarith [hX.2])] at h1
    rwa [wid_exact X]
  · rw [wid_exact, eb, ea]
    have e : xb * yb - xa * ya = xb * (yb - ya) + (xb - xa) * ya := by ring
    rw [e]
    refine add_le_add ?_ ?_
    · refine (le_abs_self _).trans ?_
      rw [abs_mul]
      exact mul_le_mul (cX _ hxb).2 (abs_sub_le_wid hyb hya) (abs_nonneg _) X0
    · refine (le_abs_self _).trans ?_
      rw [abs_mul]
      exact mul_le_mul (abs_sub_le_wid hxb hxa) (cY _ hya).2 (abs_nonneg _) (wid_nonneg_exact hX)
  · have near : ∀ U V : Iv K, Ordinary U → Ordinary V → ∀ u ∈ U, ∃ v ∈ V, |u - v| ≤ dist U V := fun U V hU hV u hu => by
      obtain ⟨v, h1, h2, h3⟩ := ((C24_dist_hausdorff U V hU.2 hV.2 _).mp (le_refl _)).1 u hu.1 hu.2
      exact ⟨v, ⟨h1, h2⟩, h3⟩
    have side : ∀ U V : Iv K, Ordinary U → Ordinary V →
        (X.mul Rnd.exact V).a ≤ (X.mul Rnd.exact U).a + X.mag * dist U V ∧
        (X.mul Rnd.exact U).b - X.mag * dist U V ≤ (X.mul Rnd.exact V).b := by
      intro U V hU hV
      obtain ⟨_, ⟨x1, hx1, u1, hu1, e1⟩, ⟨x2, hx2, u2, hu2, e2⟩⟩ := C11_mul_range X U hX hU
      have encV := (C11_mul_range X V hX hV).1
      obtain ⟨v1, hv1, d1⟩ := near U V hU hV u1 hu1
      obtain ⟨v2, hv2, d2⟩ := near U V hU hV u2 hu2
      have b1 : |x1 * (u1 - v1)| ≤ X.mag * dist U V := by
        rw [abs_mul]; exact mul_le_mul (cX _ hx1).2 d1 (abs_nonneg _) X0
      have b2 : |x2 * (u2 - v2)| ≤ X.mag * dist U V := by
        rw [abs_mul]; exact mul_le_mul (cX _ hx2).2 d2 (abs_nonneg _) X0
      have c1 := (encV _ ⟨x1, hx1, v1, hv1, rfl⟩).1
      have c2 := (encV _ ⟨x2, hx2, v2, hv2, rfl⟩).2
      rw [abs_le] at b1 b2
      rw [e1, e2]
      constructor <;> nlinarith [b1.1, b1.2, b2.1, b2.2]
    obtain ⟨s1, s2⟩ := side Y Z hY hZ
    obtain ⟨t1, t2⟩ := side Z Y hZ hY
    rw [(C24_dist_metric Z Y Y).2.1] at t1 t2
    rw [dist_le, abs_le, abs_le]
    refine ⟨⟨?_, ?_⟩, ?_, ?_⟩ <;> linarith

/-- C153: quotients: `mag (X / Y) = mag X / mig Y`. -/
theorem C153_quotient (X Y Z : Iv K) (hX : Ordinary X) (hY : Ordinary Y) (h : X.div Rnd.exact Y = .ok Z) :
    Z.mag = X.mag / Y.mig := by
  have h0 : ¬ (0 : K) ∈ Y := fun h0 => by
    rw [((C03_div_error_iff Rnd.exact X Y hX hY).1).mpr h0] at h; cases h
  have oZ : Ordinary Z := by
    obtain ⟨Z', h1, h2⟩ := ((C03_div_error_iff Rnd.exact X Y hX hY).2).mpr h0
    rw [h] at h1; cases h1; exact h2
  obtain ⟨enc, ⟨xa, hxa, ya, hya, ea⟩, ⟨xb, hxb, yb, hyb, eb⟩⟩ := C11_div_range X Y Z hX hY h
  obtain ⟨cX, _, ⟨xM, hxM, exM⟩, _⟩ := C20_characteristics X hX
  obtain ⟨cY, ⟨ym, hym, eym⟩, _, _⟩ := C20_characteristics Y hY
  have py : 0 < Y.mig := eym ▸ abs_pos.mpr fun e => h0 (e ▸ hym)
  have X0 : 0 ≤ X.mag := exM ▸ abs_nonneg _
  have bound : ∀ x ∈ X, ∀ y ∈ Y, |x / y| ≤ X.mag / Y.mig := fun x hx y hy => by
    rw [abs_div]
    exact div_le_div₀ X0 (cX x hx).2 py (cY y hy).1
  refine le_antisymm (max_le ?_ ?_) ?_
  · rw [ea]; exact bound _ hxa _ hya
  · rw [eb]; exact bound _ hxb _ hyb
  · have := ((C20_characteristics Z oZ).1 _ (enc _ ⟨xM, hxM, ym, hym, rfl⟩)).2
    rwa [abs_div, exM, eym] at this

/-- C153: with any rounding the result contains the exact one, so that it is at least as wide. -/
theorem C153_rounded (R : Rnd K) (X Y : Iv K) (hX : Ordinary X) (hY : Ordinary Y) :
    Sub (X.add Rnd.exact Y) (X.add R Y) ∧ Sub (X.sub Rnd.exact Y) (X.sub R Y) ∧ Sub (X.mul Rnd.exact Y) (X.mul R Y) ∧
    X.wid Rnd.exact + Y.wid Rnd.exact ≤ (X.add R Y).b - (X.add R Y).a ∧
    max (X.mag * Y.wid Rnd.exact) (X.wid Rnd.exact * Y.mag) ≤ (X.mul R Y).b - (X.mul R Y).a := by
  have sub_of : ∀ (U V : Iv K), Ordinary U → U.a ∈ V → U.b ∈ V → Sub U V := fun U V _ h1 h2 s hs =>
    ⟨h1.1.trans hs.1, hs.2.trans h2.2⟩
  have wide : ∀ (U V : Iv K), Ordinary U → Sub U V → U.wid Rnd.exact ≤ V.b - V.a := fun U V hU h => by
    rw [wid_exact]
    linarith [(h _ (memL hU)).1, (h _ (memR hU)).2]
  obtain ⟨oa, os⟩ := C01_add_sub_ordinary Rnd.exact X Y hX hY
  have om := C02_mul_ordinary Rnd.exact X Y hX hY
  have s1 : Sub (X.add Rnd.exact Y) (X.add R Y) := by
    obtain ⟨_, h1, h2⟩ := C11_add_range X Y hX hY
    exact sub_of _ _ oa (C01_add_encloses R X Y _ h1) (C01_add_encloses R X Y _ h2)
  have s2 : Sub (X.sub Rnd.exact Y) (X.sub R Y) := by
    obtain ⟨_, h1, h2⟩ := C11_sub_range X Y hX hY
    exact sub_of _ _ os (C01_sub_encloses R X Y _ h1) (C01_sub_encloses R X Y _ h2)
  have s3 : Sub (X.mul Rnd.exact Y) (X.mul R Y) := by
    obtain ⟨_, h1, h2⟩ := C11_mul_range X Y hX hY
    exact sub_of _ _ om (C02_mul_encloses R X Y hX hY _ h1) (C02_mul_encloses R X Y hX hY _ h2)
  refine ⟨s1, s2, s3, ?_, ?_⟩
  · rw [← (C153_sum X Y X Y hX hY hX hY).1]; exact wide _ _ oa s1
  · exact (C153_product X Y Y hX hY hY).2.2.1.trans (wide _ _ om s3)

/-- `[-1, 2] · [3, 5]`: width `15`, between `max (2·2) (3·5)` and their sum. -/
example : ((⟨.classical, -1, 2⟩ : Iv ℚ).mul Rnd.exact ⟨.classical, 3, 5⟩).wid Rnd.exact = 15 ∧
    (⟨.classical, -1, 2⟩ : Iv ℚ).mag * (⟨.classical, 3, 5⟩ : Iv ℚ).wid Rnd.exact = 4 ∧
    (⟨.classical, -1, 2⟩ : Iv ℚ).wid Rnd.exact * (⟨.classical, 3, 5⟩ : Iv ℚ).mag = 15 := by decide +kernel

/-- The bounds on the width are not equalities: `[1, 2] · [3, 5]` has width `7`, between `max (2·2) (1·5)` and `9`. -/
example : ((⟨.classical, 1, 2⟩ : Iv ℚ).mul Rnd.exact ⟨.classical, 3, 5⟩).wid Rnd.exact = 7 := by decide +kernel

end IntvalPy
