import Verif.PropsRecFun

/-!
# C67: the gradients of Tol, Uni and Uss
-/

set_option autoImplicit false
set_option linter.unusedSectionVars false

namespace IntvalPy
open Spec

variable {K : Type*} [Field K] [LinearOrder K] [IsStrictOrderedRing K] {m n : ℕ}

/-- Changing one coordinate changes one term of a separable sum. -/
theorem sum_update (φ : Fin n → K → K) (x : Fin n → K) (j : Fin n) (u : K) :
    ∑ k, φ k (Function.update x j u k) = ∑ k, φ k (x k) + (φ j u - φ j (x j)) := by
  rw [← Finset.add_sum_erase _ _ (Finset.mem_univ j), ← Finset.add_sum_erase Finset.univ
    (fun k => φ k (x k)) (Finset.mem_univ j)]
  have : ∑ k ∈ Finset.univ.erase j, φ k (Function.update x j u k) = ∑ k ∈ Finset.univ.erase j, φ k (x k) :=
    Finset.sum_congr rfl fun k hk => by rw [Function.update_of_ne (Finset.ne_of_mem_erase hk)]
  rw [this, Function.update_self]
  ring

/-- If `F` is affine near `x` with slope `s`, lies below `h` and touches it at `x`, and `h` is affine near `x`
along every axis with slopes `G`, then `s = G`. -/
theorem slope_eq (F : (Fin n → K) → Except Err K) (x s G : Fin n → K) (h : (Fin n → K) → K)
    (hF : LocallyAffine F x s) (hx : F x = .ok (h x)) (hle : ∀ y v, F y = .ok v → v ≤ h y)
    (hG : ∀ j, ∃ δ, 0 < δ ∧ ∀ t, |t| < δ → h (Function.update x j (x j + t)) ≤ h x + t * G j) : s = G := by
  obtain ⟨v, ε, hε, hv, haff⟩ := hF
  have hvx : v = h x := by rw [hx] at hv; cases hv; rfl
  funext j
  obtain ⟨δ, hδ, hh⟩ := hG j
  have key : ∀ t, |t| < ε → |t| < δ → t * s j ≤ t * G j := by
    intro t h1 h2
    have e := haff (Function.update x j (x j + t)) (by
      intro k
      by_cases hk : k = j
      · subst hk; simpa using h1
      · rw [Function.update_of_ne hk]; simpa using hε)
    have l1 := hle _ _ e
    have l2 := hh t h2
    have l3 := sum_update (fun k u => s k * (u - x k)) x j (x j + t)
    simp only [sub_self, mul_zero, Finset.sum_const_zero, zero_add, sub_zero] at l3
    rw [l3, hvx] at l1
    have : s j * (x j + t - x j) = t * s j := by ring
    linarith
  set t := min ε δ / 2 with ht
  have hm : 0 < min ε δ := lt_min hε hδ
  have ht0 : 0 < t := by positivity
  have hta : |t| = t := abs_of_pos ht0
  have h1 : t < ε := by have := min_le_left ε δ; rw [ht]; linarith
  have h2 : t < δ := by have := min_le_right ε δ; rw [ht]; linarith
  have k1 := key t (by rw [hta]; exact h1) (by rw [hta]; exact h2)
  have k2 := key (-t) (by rw [abs_neg, hta]; exact h1) (by rw [abs_neg, hta]; exact h2)
  have : t * s j = t * G j := le_antisymm k1 (by linarith)
  exact mul_left_cancel₀ ht0.ne' this

/-- C67 (full statement, false for `Uni` and `Uss`): where the functional is affine near `x`, the gradient given
to the optimiser is minus its slope. -/
def C67_statement (F : RecFun) (K : Type*) [Field K] [LinearOrder K] : Prop :=
  ∀ (m n : ℕ) (A : Fin m → Fin n → Iv K) (b : Fin m → Iv K) (w : Fin m → K) (x s : Fin n → K) (f : K)
    (g : Fin n → K), 0 < n → (∀ i j, Ordinary (A i j)) → (∀ i, Ordinary (b i)) → (∀ i, 0 < w i) →
    LocallyAffine (F.value A b w) x s → F.calcfg (recData A b w) x = .ok (f, g) → ∀ j, g j = -(s j)

/-- C67 for `Tol`. -/
theorem C67_tol_gradient : C67_statement .tol K := by
  intro m n A b w x s f g hn hA _ hw hF hg j
  have hm : 0 < m := by
    rcases Nat.eq_zero_or_pos m with rfl | h
    · obtain ⟨v, ε, _, hv, _⟩ := hF
      cases hv
    · exact h
  obtain ⟨f', g', h1, h2⟩ := C33_objective_is_minus_value .tol hm hn A b w x (recData A b w).infA
    (recData A b w).supA hA
  change RecFun.tol.calcfg (recData A b w) x = _ at h1
  rw [hg] at h1
  cases h1
  have := slope_eq _ x s (fun j => -g j) (fun y => -f + ∑ j, -g j * (y j - x j)) hF (by simpa using h2)
    (fun y v hv => C32_tol_supergradient_partial hn A b w hA hw x y f g v hg hv)
    (fun j => ⟨1, one_pos, fun t _ => by
      have l3 := sum_update (fun k u => -g k * (u - x k)) x j (x j + t)
      rw [l3]
      simp only [sub_self, mul_zero, Finset.sum_const_zero, add_zero, zero_add, sub_zero, add_sub_cancel_left]
      rw [mul_comm]⟩)
  rw [this]
  simp

theorem calcfg_uni {A : Fin m → Fin n → Iv K} {b : Fin m → Iv K} {w : Fin m → K} {x : Fin n → K} {f : K}
    {g : Fin n → K} (h : uniCalcfg (recData A b w) x = .ok (f, g)) :
    ∃ mc, npArgmin (uniArr (recData A b w) x) = .ok mc ∧ f = -(uniArr (recData A b w) x mc) := by
  rw [uniCalcfg] at h
  cases hmc : npArgmin (uniArr (recData A b w) x) with
  | error e => rw [hmc] at h; cases h
  | ok mc => rw [hmc] at h; cases h; exact ⟨mc, rfl, rfl⟩

theorem calcfg_uss {A : Fin m → Fin n → Iv K} {b : Fin m → Iv K} {w : Fin m → K} {x : Fin n → K} {f : K}
    {g : Fin n → K} (h : ussCalcfg (recData A b w) x = .ok (f, g)) :
    ∃ mc, npArgmin (ussArr (recData A b w) x) = .ok mc ∧ f = -(ussArr (recData A b w) x mc) := by
  rw [ussCalcfg] at h
  cases hmc : npArgmin (ussArr (recData A b w) x) with
  | error e => rw [hmc] at h; cases h
  | ok mc => rw [hmc] at h; cases h; exact ⟨mc, rfl, rfl⟩

theorem abs_add_small {x t : K} (hx : x ≠ 0) (ht : |t| < |x|) : |x + t| = |x| + t * npSign x := by
  rw [abs_lt] at ht
  unfold npSign
  rcases lt_or_gt_of_ne hx with h | h
  · rw [abs_of_neg h] at ht ⊢
    rw [if_neg (not_lt.mpr h.le), if_pos h, abs_of_neg (by linarith)]
    ring
  · rw [abs_of_pos h] at ht ⊢
    rw [if_pos h, abs_of_pos (by linarith)]
    ring

/-- `|c * t| < r` for small `t`. -/
theorem exists_small (c r : K) (hr : 0 < r) : ∃ δ, 0 < δ ∧ ∀ t, |t| < δ → |t * c| < r := by
  refine ⟨r / (|c| + 1), div_pos hr (by positivity), fun t ht => ?_⟩
  rw [lt_div_iff₀ (by positivity)] at ht
  rw [abs_mul]
  nlinarith [abs_nonneg t]

/-- The row product along an axis. -/
theorem row_update (row : Fin n → Iv K) (x : Fin n → K) (j : Fin n) (t : K) (hx : x j ≠ 0) (ht : |t| < |x j|) :
    rowMid row (Function.update x j (x j + t)) = rowMid row x + t * (row j).mid Rnd.exact ∧
    rowRad row (Function.update x j (x j + t)) = rowRad row x + t * (npSign (x j) * (row j).rad Rnd.exact) := by
  constructor
  · rw [rowMid, sum_update (fun k u => (row k).mid Rnd.exact * u) x j (x j + t), rowMid]
    ring
  · rw [rowRad, sum_update (fun k u => (row k).rad Rnd.exact * |u|) x j (x j + t), rowRad, abs_add_small hx ht]
    ring

theorem mixRow_sign (row : Fin n → Iv K) (x : Fin n → K) (j : Fin n) (hx : x j ≠ 0) :
    mixRow (fun j => (row j).a) (fun j => (row j).b) x j
      = (row j).mid Rnd.exact - npSign (x j) * (row j).rad Rnd.exact ∧
    mixRow (fun j => (row j).b) (fun j => (row j).a) x j
      = (row j).mid Rnd.exact + npSign (x j) * (row j).rad Rnd.exact := by
  have e1 := mid_sub_rad (row j)
  have e2 := mid_add_rad (row j)
  unfold mixRow npSign
  rcases lt_or_gt_of_ne hx with h | h
  · rw [if_neg (not_le.mpr h), if_neg (not_le.mpr h), if_neg (not_lt.mpr h.le), if_pos h]
    constructor <;> linarith
  · rw [if_pos h.le, if_pos h.le, if_pos h]
    constructor <;> linarith

/-- C67, partial, for `Uss`: right when no coordinate of `x` is zero and the residual of the chosen row is not.
Missing: points with a zero coordinate or residual, where it can fail (`C67_uss_false`). -/
theorem C67_uss_gradient_partial (A : Fin m → Fin n → Iv K) (b : Fin m → Iv K) (w : Fin m → K)
    (x s : Fin n → K) (f : K) (g : Fin n → K) (hw : ∀ i, 0 < w i) (hx : ∀ j, x j ≠ 0)
    (hres : ∀ i, (b i).mid Rnd.exact ≠ rowMid (A i) x)
    (hF : LocallyAffine (RecFun.uss.value A b w) x s) (hg : RecFun.uss.calcfg (recData A b w) x = .ok (f, g))
    (j : Fin n) : g j = -(s j) := by
  change ussCalcfg (recData A b w) x = _ at hg
  obtain ⟨mc, hmc, hf⟩ := calcfg_uss hg
  rw [ussCalcfg, hmc] at hg
  simp only [Except.ok.injEq, Prod.mk.injEq] at hg
  obtain ⟨-, hg⟩ := hg
  have e : ∀ y, ussArr (recData A b w) y mc = w mc * ((b mc).rad Rnd.exact + rowRad (A mc) y -
    |(b mc).mid Rnd.exact - rowMid (A mc) y|) := fun y => rfl
  have := slope_eq _ x s (fun j => w mc * (npSign (x j) * (A mc j).rad Rnd.exact +
      npSign ((b mc).mid Rnd.exact - rowMid (A mc) x) * (A mc j).mid Rnd.exact))
    (fun y => ussArr (recData A b w) y mc) hF
    (by rw [RecFun.value, ussValue_eq, npArgmin_npAmin hmc])
    (fun y v hv => by
      rw [RecFun.value, ussValue_eq] at hv
      exact (npAmin_spec hv).2 _ ((List.mem_ofFn' _ _).mpr ⟨mc, rfl⟩))
    (fun j => by
      have hr : (b mc).mid Rnd.exact - rowMid (A mc) x ≠ 0 := sub_ne_zero.mpr (hres mc)
      obtain ⟨δ, hδ, hs⟩ := exists_small (-(A mc j).mid Rnd.exact) _ (abs_pos.mpr hr)
      refine ⟨min δ |x j|, lt_min hδ (abs_pos.mpr (hx j)), fun t ht => ?_⟩
      obtain ⟨u1, u2⟩ := row_update (A mc) x j t (hx j) (ht.trans_le (min_le_right _ _))
      rw [e, e, u1, u2]
      have h1 := abs_add_small hr (hs t (ht.trans_le (min_le_left _ _)))
      have h2 : (b mc).mid Rnd.exact - (rowMid (A mc) x + t * (A mc j).mid Rnd.exact) =
        (b mc).mid Rnd.exact - rowMid (A mc) x + t * -(A mc j).mid Rnd.exact := by ring
      rw [h2, h1]
      apply le_of_eq
      ring)
  rw [this, ← hg]
  rfl

/-- For `Uni` the vector is right when no coordinate of `x` is zero and the two sides of the row chosen do not meet. -/
theorem uni_gradient_row (hn : 0 < n) (A : Fin m → Fin n → Iv K) (b : Fin m → Iv K) (w : Fin m → K)
    (x s : Fin n → K) (f : K) (g : Fin n → K) (hA : ∀ i j, Ordinary (A i j))
    (hx : ∀ j, x j ≠ 0)
    (hsep : ∀ i, npArgmin (uniArr (recData A b w) x) = .ok i → (b i).mid Rnd.exact < rowMid (A i) x - rowRad (A i) x ∨
      rowMid (A i) x + rowRad (A i) x < (b i).mid Rnd.exact)
    (hF : LocallyAffine (RecFun.uni.value A b w) x s) (hg : RecFun.uni.calcfg (recData A b w) x = .ok (f, g))
    (j : Fin n) : g j = -(s j) := by
  change uniCalcfg (recData A b w) x = _ at hg
  obtain ⟨mc, hmc, hf⟩ := calcfg_uni hg
  rw [uniCalcfg, hmc] at hg
  simp only [Except.ok.injEq, Prod.mk.injEq] at hg
  obtain ⟨-, hg⟩ := hg
  have ei : ∀ y, infs (recData A b w) y mc = (b mc).mid Rnd.exact - (rowMid (A mc) y + rowRad (A mc) y) :=
    fun y => rfl
  have es : ∀ y, sups (recData A b w) y mc = (b mc).mid Rnd.exact - (rowMid (A mc) y - rowRad (A mc) y) :=
    fun y => rfl
  have e : ∀ y, uniArr (recData A b w) y mc = w mc * ((b mc).rad Rnd.exact -
    uniMig (infs (recData A b w) y mc) (sups (recData A b w) y mc)) := fun y => rfl
  have val : ∀ y, RecFun.uni.value A b w y = npAmin (List.ofFn (uniArr (recData A b w) y)) := fun y =>
    uniValue_eq hn A b w y hA
  have hbound : ∀ y v, RecFun.uni.value A b w y = .ok v → v ≤ uniArr (recData A b w) y mc := by
    intro y v hv
    rw [val] at hv
    exact (npAmin_spec hv).2 _ ((List.mem_ofFn' _ _).mpr ⟨mc, rfl⟩)
  have hrr : ∀ y, infs (recData A b w) y mc ≤ sups (recData A b w) y mc := fun y => by
    have := rowRad_nonneg (hA mc) y
    rw [ei, es]; linarith
  have migP : ∀ {p q : K}, 0 < p → p ≤ q → uniMig p q = p := by
    intro p q hp hq
    rw [uniMig, if_neg (by have := mul_pos hp (hp.trans_le hq); linarith), abs_of_pos hp,
      abs_of_pos (hp.trans_le hq), min_eq_left hq]
  have migN : ∀ {p q : K}, q < 0 → p ≤ q → uniMig p q = -q := by
    intro p q hq hp
    have hp' := hp.trans_lt hq
    rw [uniMig, if_neg (by have := mul_pos_of_neg_of_neg hp' hq; linarith), abs_of_neg hp', abs_of_neg hq,
      min_eq_right (by linarith)]
  rcases hsep mc hmc with hneg | hpos
  · have hs0 : sups (recData A b w) x mc < 0 := by rw [es]; linarith
    have hnc : ¬ -(infs (recData A b w) x mc) ≤ sups (recData A b w) x mc := by
      have := hrr x; intro h; linarith
    rw [if_neg hnc] at hg
    have := slope_eq _ x s (fun j => -w mc * ((A mc j).mid Rnd.exact - npSign (x j) * (A mc j).rad Rnd.exact))
      (fun y => uniArr (recData A b w) y mc) hF (by rw [val, npArgmin_npAmin hmc]) hbound
      (fun j => by
        obtain ⟨δ, hδ, hs⟩ := exists_small ((A mc j).mid Rnd.exact - npSign (x j) * (A mc j).rad Rnd.exact)
          (-(sups (recData A b w) x mc)) (by linarith)
        refine ⟨min δ |x j|, lt_min hδ (abs_pos.mpr (hx j)), fun t ht => ?_⟩
        obtain ⟨u1, u2⟩ := row_update (A mc) x j t (hx j) (ht.trans_le (min_le_right _ _))
        have h1 := hs t (ht.trans_le (min_le_left _ _))
        have h2 : sups (recData A b w) (Function.update x j (x j + t)) mc = sups (recData A b w) x mc -
            t * ((A mc j).mid Rnd.exact - npSign (x j) * (A mc j).rad Rnd.exact) := by
          rw [es, es, u1, u2]; ring
        rw [abs_lt] at h1
        rw [e, e, migN hs0 (hrr x), migN (by rw [h2]; linarith) (hrr _), h2]
        apply le_of_eq
        ring)
    rw [this, ← hg]
    have hm := (mixRow_sign (A mc) x j (hx j)).1
    change -(-w mc * mixRow (fun j => (A mc j).a) (fun j => (A mc j).b) x j) = _
    rw [hm]
  · have hi0 : 0 < infs (recData A b w) x mc := by rw [ei]; linarith
    have hc : -(infs (recData A b w) x mc) ≤ sups (recData A b w) x mc := by
      have := hrr x; linarith
    rw [if_pos hc] at hg
    have := slope_eq _ x s (fun j => w mc * ((A mc j).mid Rnd.exact + npSign (x j) * (A mc j).rad Rnd.exact))
      (fun y => uniArr (recData A b w) y mc) hF (by rw [val, npArgmin_npAmin hmc]) hbound
      (fun j => by
        obtain ⟨δ, hδ, hs⟩ := exists_small ((A mc j).mid Rnd.exact + npSign (x j) * (A mc j).rad Rnd.exact)
          (infs (recData A b w) x mc) hi0
        refine ⟨min δ |x j|, lt_min hδ (abs_pos.mpr (hx j)), fun t ht => ?_⟩
        obtain ⟨u1, u2⟩ := row_update (A mc) x j t (hx j) (ht.trans_le (min_le_right _ _))
        have h1 := hs t (ht.trans_le (min_le_left _ _))
        have h2 : infs (recData A b w) (Function.update x j (x j + t)) mc = infs (recData A b w) x mc -
            t * ((A mc j).mid Rnd.exact + npSign (x j) * (A mc j).rad Rnd.exact) := by
          rw [ei, ei, u1, u2]; ring
        rw [abs_lt] at h1
        rw [e, e, migP hi0 (hrr x), migP (by rw [h2]; linarith) (hrr _), h2]
        apply le_of_eq
        ring)
    rw [this, ← hg]
    have hm := (mixRow_sign (A mc) x j (hx j)).2
    change -(w mc * mixRow (fun j => (A mc j).b) (fun j => (A mc j).a) x j) = _
    rw [hm]

/-- C67, partial, for `Uni`: right when no coordinate of `x` is zero and the two sides of the chosen row do not
meet.  Missing: points where they meet, where it fails (`C67_uni_false`). -/
theorem C67_uni_gradient_partial (hn : 0 < n) (A : Fin m → Fin n → Iv K) (b : Fin m → Iv K) (w : Fin m → K)
    (x s : Fin n → K) (f : K) (g : Fin n → K) (hA : ∀ i j, Ordinary (A i j))
    (hx : ∀ j, x j ≠ 0)
    (hsep : ∀ i, (b i).mid Rnd.exact < rowMid (A i) x - rowRad (A i) x ∨
      rowMid (A i) x + rowRad (A i) x < (b i).mid Rnd.exact)
    (hF : LocallyAffine (RecFun.uni.value A b w) x s) (hg : RecFun.uni.calcfg (recData A b w) x = .ok (f, g))
    (j : Fin n) : g j = -(s j) :=
  uni_gradient_row hn A b w x s f g hA hx (fun i _ => hsep i) hF hg j

/-- C67 for `Uni`, all points without a zero coordinate: where the functional is affine, the vector is right or the
functional has its greatest value there.  So the wrong vector is only ever given at points that cannot be improved. -/
theorem C67_uni_right_or_greatest (hn : 0 < n) (A : Fin m → Fin n → Iv K) (b : Fin m → Iv K) (w : Fin m → K)
    (x s : Fin n → K) (f : K) (g : Fin n → K) (hA : ∀ i j, Ordinary (A i j)) (hw : ∀ i, 0 ≤ w i)
    (hx : ∀ j, x j ≠ 0)
    (hF : LocallyAffine (RecFun.uni.value A b w) x s) (hg : RecFun.uni.calcfg (recData A b w) x = .ok (f, g)) :
    (∀ j, g j = -(s j)) ∨
    ∃ v, RecFun.uni.value A b w x = .ok v ∧ ∀ y v', RecFun.uni.value A b w y = .ok v' → v' ≤ v := by
  obtain ⟨mc, hmc, hf⟩ := calcfg_uni (A := A) (b := b) (w := w) (x := x) (f := f) (g := g) hg
  by_cases hs : (b mc).mid Rnd.exact < rowMid (A mc) x - rowRad (A mc) x ∨
      rowMid (A mc) x + rowRad (A mc) x < (b mc).mid Rnd.exact
  · left
    intro j
    refine uni_gradient_row hn A b w x s f g hA hx (fun i hi => ?_) hF hg j
    rw [hmc] at hi
    injection hi with hi
    rw [← hi]
    exact hs
  · right
    rw [not_or, not_lt, not_lt] at hs
    have e : ∀ y, uniArr (recData A b w) y mc = w mc * ((b mc).rad Rnd.exact -
      uniMig ((b mc).mid Rnd.exact - (rowMid (A mc) y + rowRad (A mc) y))
        ((b mc).mid Rnd.exact - (rowMid (A mc) y - rowRad (A mc) y))) := fun y => rfl
    have top : uniArr (recData A b w) x mc = w mc * (b mc).rad Rnd.exact := by
      rw [e, uniMig, if_pos, sub_zero]
      apply mul_nonpos_of_nonpos_of_nonneg <;> linarith [hs.1, hs.2]
    refine ⟨uniArr (recData A b w) x mc, ?_, ?_⟩
    · rw [RecFun.value, uniValue_eq hn A b w x hA, npArgmin_npAmin hmc]
    · intro y v' hv
      rw [RecFun.value, uniValue_eq hn A b w y hA] at hv
      refine ((npAmin_spec hv).2 _ ((List.mem_ofFn' _ _).mpr ⟨mc, rfl⟩)).trans ?_
      rw [top, e]
      refine mul_le_mul_of_nonneg_left ?_ (hw mc)
      have : ∀ p q : K, 0 ≤ uniMig p q := by
        intro p q
        unfold uniMig
        split_ifs
        · exact le_refl _
        · exact le_min (abs_nonneg _) (abs_nonneg _)
      have := this ((b mc).mid Rnd.exact - (rowMid (A mc) y + rowRad (A mc) y))
        ((b mc).mid Rnd.exact - (rowMid (A mc) y - rowRad (A mc) y))
      linarith

/-- C67 is false for `Uni` (`[1,3] x = [1,3]` near `x = 1`): where the two sides of the chosen equation meet the functional is constant, but the
optimiser is given the gradient of the case where they do not meet. -/
theorem C67_uni_false : ¬ C67_statement .uni ℚ := by
  intro h
  have hO : Ordinary (⟨.classical, 1, 3⟩ : Iv ℚ) := ⟨rfl, by norm_num⟩
  have hOb : Ordinary (⟨.classical, 1, 3⟩ : Iv ℚ) := ⟨rfl, by norm_num⟩
  obtain ⟨f, g, h1, h2⟩ := C33_objective_is_minus_value .uni one_pos one_pos
    (fun _ _ => ⟨.classical, 1, 3⟩ : Fin 1 → Fin 1 → Iv ℚ) (fun _ => ⟨.classical, 1, 3⟩) (fun _ => 1) (fun _ => 1)
    _ _ (fun _ _ => hO)
  have k : (RecFun.uni.calcfg (recData (fun _ _ => ⟨.classical, 1, 3⟩ : Fin 1 → Fin 1 → Iv ℚ)
    (fun _ => ⟨.classical, 1, 3⟩) (fun _ => 1)) (fun _ => 1)).map (fun r => r.2 0) = .ok (-3) := by decide +kernel
  have := h 1 1 (fun _ _ => ⟨.classical, 1, 3⟩) (fun _ => ⟨.classical, 1, 3⟩) (fun _ => 1) (fun _ => 1)
    (fun _ => 0) f g one_pos (fun _ _ => hO) (fun _ => hOb) (fun _ => one_pos)
    ⟨1, 1 / 10, by norm_num, by decide +kernel, fun y hy => by
      have hy0 := abs_lt.mp (hy 0)
      rw [RecFun.value, uniValue_eq one_pos _ _ _ _ (fun _ _ => hO)]
      simp only [List.ofFn_succ, List.ofFn_zero, npAmin, List.foldl_nil, Fin.sum_univ_one, zero_mul, add_zero,
        uniArr, uniMig, infs, sups, amx, arx, recData, Iv.mid, Iv.rad, Iv.wid, Rnd.exact_nr, id]
      have hp : |y 0| = y 0 := abs_of_pos (by linarith)
      rw [hp, if_pos (by nlinarith)]
      norm_num⟩ h1 0
  replace k := k.symm.trans (congrArg (Except.map fun r => r.2 0) h1)
  simp only [Except.map, Except.ok.injEq] at k
  rw [← k] at this
  norm_num at this

/-- C67 is false for `Uss`: rows `[-1,1] x = 0` and `[1/2,1/2] x = [0,2]`; at `x = 0` both are
active, the functional is `x/2` nearby, the first row is chosen and its "gradient" there is 0 (so the optimiser
stops with code 2 although the functional increases). -/
theorem C67_uss_false : ¬ C67_statement .uss ℚ := by
  intro h
  let A : Fin 2 → Fin 1 → Iv ℚ := fun i _ => if i = 0 then ⟨.classical, -1, 1⟩ else ⟨.classical, 1/2, 1/2⟩
  let b : Fin 2 → Iv ℚ := fun i => if i = 0 then ⟨.classical, 0, 0⟩ else ⟨.classical, 0, 2⟩
  have hA : ∀ i j, Ordinary (A i j) := by intro i j; unfold Ordinary; revert i j; decide +kernel
  have hb : ∀ i, Ordinary (b i) := by intro i; unfold Ordinary; revert i; decide +kernel
  obtain ⟨f, g, h1, h2⟩ := C33_objective_is_minus_value .uss two_pos one_pos A b (fun _ => 1) (fun _ => 0)
    (recData A b (fun _ => 1)).infA (recData A b (fun _ => 1)).supA hA
  have k : (RecFun.uss.calcfg (recData A b (fun _ => 1)) (fun _ => 0)).map (fun r => r.2 0) = .ok 0 := by
    decide +kernel
  have := h 2 1 A b (fun _ => 1) (fun _ => 0) (fun _ => 1/2) f g one_pos hA hb (fun _ => one_pos)
    ⟨0, 1, by norm_num, by decide +kernel, fun y hy => by
      have hy0 := abs_lt.mp (hy 0)
      rw [sub_zero] at hy0
      rw [RecFun.value, ussValue_eq]
      simp only [List.ofFn_succ, List.ofFn_zero, npAmin, List.foldl_cons, List.foldl_nil, Fin.sum_univ_one,
        ussArr, amx, arx, recData, Iv.mid, Iv.rad, Iv.wid, Rnd.exact_nr, id, A, b]
      norm_num
      have e : |1 - 1 / 2 * y 0| = 1 - 1 / 2 * y 0 := abs_of_pos (by linarith)
      rw [e]
      have : (1 : ℚ) - (1 - 1 / 2 * y 0) ≤ |y 0| := by
        rcases abs_cases (y 0) with ⟨h, _⟩ | ⟨h, _⟩ <;> rw [h] <;> linarith
      rw [min_eq_right this]
      ring⟩ h1 0
  replace k := k.symm.trans (congrArg (Except.map fun r => r.2 0) h1)
  simp only [Except.map, Except.ok.injEq] at k
  rw [← k] at this
  norm_num at this

/-- The hypotheses of the partial theorems hold for `[1,3] x = [1,3]` at `x = 2` (values `[2,6]`). -/
example : (∀ j : Fin 1, (fun _ => 2 : Fin 1 → ℚ) j ≠ 0) ∧
    (⟨.classical, 1, 3⟩ : Iv ℚ).mid Rnd.exact ≠ rowMid (fun _ : Fin 1 => (⟨.classical, 1, 3⟩ : Iv ℚ)) (fun _ => 2) ∧
    (⟨.classical, 1, 3⟩ : Iv ℚ).mid Rnd.exact < rowMid (fun _ : Fin 1 => (⟨.classical, 2, 3⟩ : Iv ℚ)) (fun _ => 2) -
      rowRad (fun _ : Fin 1 => (⟨.classical, 2, 3⟩ : Iv ℚ)) (fun _ => 2) := by
  refine ⟨by simp, ?_, ?_⟩ <;> norm_num [rowMid, rowRad, Iv.mid, Iv.rad, Iv.wid]

end IntvalPy
