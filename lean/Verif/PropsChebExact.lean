import Verif.PropsCheb

/-!
# C46, C69: exact conditions for ChebNorm

`C46_cheb_partial` gives a sufficient condition.  Here the value is compared with the worst residual without any
condition on the midpoints: when the two are equal, and how far they can be apart.
-/

set_option autoImplicit false
set_option linter.unusedSectionVars false

namespace IntvalPy
open Spec

variable {K : Type*} [Field K] [LinearOrder K] [IsStrictOrderedRing K] {m n : ℕ}

/-- The greatest residual of one row: the interval product of the row lies in `[c - r, c + r]`, the right-hand side in
`[d - s, d + s]`, and the greatest distance is `|d - c| + r + s`. -/
def rowWorst (A : Fin m → Fin n → Iv K) (b : Fin m → Iv K) (x : Fin n → K) (i : Fin m) : K :=
  |(b i).mid Rnd.exact - rowMid (A i) x| + rowRad (A i) x + (b i).rad Rnd.exact

/-- The row is treated rightly by the test of the code: the row product is a point, or the midpoint of the right-hand
side is on the side of the midpoint of the row product that the test supposes. -/
def ChebRight (A : Fin m → Fin n → Iv K) (b : Fin m → Iv K) (x : Fin n → K) (i : Fin m) : Prop :=
  rowRad (A i) x = 0 ∨
  (-(rowRad (A i) x) ≤ (b i).mid Rnd.exact ∧ rowMid (A i) x ≤ (b i).mid Rnd.exact) ∨
  ((b i).mid Rnd.exact < -(rowRad (A i) x) ∧ (b i).mid Rnd.exact ≤ rowMid (A i) x)

/-- `rowWorst` is what its name says. -/
theorem rowWorst_spec (hn : 0 < n) (A : Fin m → Fin n → Iv K) (b : Fin m → Iv K) (x : Fin n → K)
    (hA : ∀ i j, Ordinary (A i j)) (hb : ∀ i, Ordinary (b i)) (i : Fin m) :
    (∀ A' b', InMat A' A → InVec b' b → |b' i - apply A' x i| ≤ rowWorst A b x i) ∧
    ∃ A' b', InMat A' A ∧ InVec b' b ∧ |b' i - apply A' x i| = rowWorst A b x i := by
  have hr := rowRad_nonneg (hA i) x
  have hs := rad_nonneg (hb i)
  constructor
  · intro A' b' hA' hb'
    obtain ⟨q1, q2⟩ := (row_values (A i) x hn (hA i) _).mp ⟨A' i, hA' i, rfl⟩
    obtain ⟨s1, s2⟩ := hb' i
    rw [← mid_sub_rad] at s1
    rw [← mid_add_rad] at s2
    change rowMid (A i) x - rowRad (A i) x ≤ apply A' x i at q1
    change apply A' x i ≤ rowMid (A i) x + rowRad (A i) x at q2
    unfold rowWorst
    have h1 := le_abs_self ((b i).mid Rnd.exact - rowMid (A i) x)
    have h2 := neg_abs_le ((b i).mid Rnd.exact - rowMid (A i) x)
    rw [abs_le]
    constructor <;> linarith
  · -- the row and the right-hand side at the far ends
    have pick : ∀ t, rowMid (A i) x - rowRad (A i) x ≤ t → t ≤ rowMid (A i) x + rowRad (A i) x → ∀ u, u ∈ b i →
        ∃ A' b', InMat A' A ∧ InVec b' b ∧ b' i = u ∧ apply A' x i = t := by
      intro t h1 h2 u hu
      obtain ⟨r, hr1, hr2⟩ := (row_values (A i) x hn (hA i) t).mpr ⟨h1, h2⟩
      refine ⟨fun k j => if k = i then r j else (A k j).a, fun k => if k = i then u else (b k).a, ?_, ?_, by simp, ?_⟩
      · intro k j
        by_cases hk : k = i
        · subst hk; simpa using hr1 j
        · simpa [hk] using memL (hA k j)
      · intro k
        by_cases hk : k = i
        · subst hk; simpa using hu
        · simpa [hk] using memL (hb k)
      · rw [← hr2]
        simp [apply, dotF]
    rcases le_total 0 ((b i).mid Rnd.exact - rowMid (A i) x) with h | h
    · obtain ⟨A', b', h1, h2, h3, h4⟩ := pick (rowMid (A i) x - rowRad (A i) x) (le_refl _) (by linarith) (b i).b
        ⟨(hb i).2, le_refl _⟩
      refine ⟨A', b', h1, h2, ?_⟩
      rw [h3, h4, ← mid_add_rad, rowWorst, abs_of_nonneg h, abs_of_nonneg (by linarith)]
      ring
    · obtain ⟨A', b', h1, h2, h3, h4⟩ := pick (rowMid (A i) x + rowRad (A i) x) (by linarith) (le_refl _) (b i).a
        ⟨le_refl _, (hb i).2⟩
      refine ⟨A', b', h1, h2, ?_⟩
      rw [h3, h4, ← mid_sub_rad, rowWorst, abs_of_nonpos h, abs_of_nonpos (by linarith)]
      ring

/-- The element of the array for one row: the worst residual if the row is treated rightly, otherwise smaller by twice
the smaller of the radius of the row product and the distance of the midpoints. -/
theorem chebArr_eq (hn : 0 < n) (lp : (Fin n → K) → (Fin n → K) → (Fin n → K) → Fin n → K)
    (hlp : IsBoxLP lp) (A : Fin m → Fin n → Iv K) (b : Fin m → Iv K) (w : Fin m → K) (x : Fin n → K)
    (hA : ∀ i j, Ordinary (A i j)) (i : Fin m) :
    (ChebRight A b x i → chebArr lp (recData A b w) x i = w i * rowWorst A b x i) ∧
    (¬ ChebRight A b x i → chebArr lp (recData A b w) x i =
      w i * (rowWorst A b x i - 2 * min (rowRad (A i) x) |(b i).mid Rnd.exact - rowMid (A i) x|) ∧
      0 < min (rowRad (A i) x) |(b i).mid Rnd.exact - rowMid (A i) x|) := by
  have hr := rowRad_nonneg (hA i) x
  have harr : chebArr lp (recData A b w) x i = w i * ((b i).rad Rnd.exact + |(b i).mid Rnd.exact -
      dotF (chebRow lp x (fun j => (A i j).a) (fun j => (A i j).b) ((b i).mid Rnd.exact)) x|) := rfl
  obtain ⟨-, -, l3, l4⟩ := lp_bounds lp hlp hn (A i) (hA i) x
  have e : dotF (lp (fun j => -(x j)) (fun j => (A i j).a) (fun j => (A i j).b)) (fun j => -(x j))
      = -(rowMid (A i) x + rowRad (A i) x) := by
    rw [← l4]
    simp [dotF, Finset.sum_neg_distrib]
  have hrow : (-(rowRad (A i) x) ≤ (b i).mid Rnd.exact ∧
        dotF (chebRow lp x (fun j => (A i j).a) (fun j => (A i j).b) ((b i).mid Rnd.exact)) x = rowMid (A i) x - rowRad (A i) x) ∨
      ((b i).mid Rnd.exact < -(rowRad (A i) x) ∧
        dotF (chebRow lp x (fun j => (A i j).a) (fun j => (A i j).b) ((b i).mid Rnd.exact)) x = rowMid (A i) x + rowRad (A i) x) := by
    rw [chebRow]
    simp only [e, l3]
    split_ifs with hc
    · exact Or.inl ⟨by linarith, l3⟩
    · exact Or.inr ⟨by linarith, l4⟩
  rw [harr]
  unfold rowWorst ChebRight
  generalize dotF (chebRow lp x (fun j => (A i j).a) (fun j => (A i j).b) ((b i).mid Rnd.exact)) x = p at *
  generalize rowRad (A i) x = r at *
  generalize rowMid (A i) x = c at *
  generalize (b i).mid Rnd.exact = d at *
  constructor
  · intro h
    congr 1
    rcases hrow with ⟨c1, rfl⟩ | ⟨c1, rfl⟩
    · rcases h with rfl | ⟨-, h⟩ | ⟨h, -⟩
      · rw [sub_zero]; ring
      · rw [abs_of_nonneg (by linarith : 0 ≤ d - (c - r)), abs_of_nonneg (by linarith : 0 ≤ d - c)]; ring
      · exact absurd c1 (not_le.mpr h)
    · rcases h with rfl | ⟨h, -⟩ | ⟨-, h⟩
      · rw [add_zero]; ring
      · exact absurd c1 (not_lt.mpr h)
      · rw [abs_of_nonpos (by linarith : d - (c + r) ≤ 0), abs_of_nonpos (by linarith : d - c ≤ 0)]; ring
  · intro h
    obtain ⟨h1, h2⟩ := not_or.mp h
    obtain ⟨h2, h3⟩ := not_or.mp h2
    have hr0 : 0 < r := lt_of_le_of_ne hr (Ne.symm h1)
    rcases hrow with ⟨c1, rfl⟩ | ⟨c1, rfl⟩
    · have hd : d < c := by by_contra hcon; exact h2 ⟨c1, not_lt.mp hcon⟩
      have habs : |d - c| = c - d := by rw [abs_of_neg (by linarith)]; ring
      rw [habs]
      refine ⟨?_, lt_min hr0 (by linarith)⟩
      congr 1
      rcases le_total r (c - d) with hm | hm
      · rw [min_eq_left hm, abs_of_nonpos (by linarith : d - (c - r) ≤ 0)]; ring
      · rw [min_eq_right hm, abs_of_nonneg (by linarith : 0 ≤ d - (c - r))]; ring
    · have hd : c < d := by by_contra hcon; exact h3 ⟨c1, not_lt.mp hcon⟩
      have habs : |d - c| = d - c := abs_of_pos (by linarith)
      rw [habs]
      refine ⟨?_, lt_min hr0 (by linarith)⟩
      congr 1
      rcases le_total r (d - c) with hm | hm
      · rw [min_eq_left hm, abs_of_nonneg (by linarith : 0 ≤ d - (c + r))]; ring
      · rw [min_eq_right hm, abs_of_nonpos (by linarith : d - (c + r) ≤ 0)]; ring

/-- C46, exactly when the reported value is the worst residual: some row that attains the worst residual is treated
rightly by the test of the code. -/
theorem C46_exact_iff (hn : 0 < n) (lp : (Fin n → K) → (Fin n → K) → (Fin n → K) → Fin n → K)
    (hlp : IsBoxLP lp) (A : Fin m → Fin n → Iv K) (b : Fin m → Iv K) (w : Fin m → K) (x : Fin n → K)
    (hA : ∀ i j, Ordinary (A i j)) (hb : ∀ i, Ordinary (b i)) (hw : ∀ i, 0 < w i) (v : K)
    (hv : chebValue lp A b w x = .ok v) :
    IsWorstResidual A b w x v ↔
      ∃ i, (∀ k, w k * rowWorst A b x k ≤ w i * rowWorst A b x i) ∧ ChebRight A b x i := by
  obtain ⟨v1, v2⟩ := npAmax_spec hv
  have hle : ∀ i, chebArr lp (recData A b w) x i ≤ w i * rowWorst A b x i := by
    intro i
    obtain ⟨e1, e2⟩ := chebArr_eq hn lp hlp A b w x hA i
    by_cases h : ChebRight A b x i
    · exact (e1 h).le
    · obtain ⟨e, hp⟩ := e2 h
      rw [e]
      exact mul_le_mul_of_nonneg_left (by linarith) (hw i).le
  constructor
  · rintro ⟨h1, -⟩
    obtain ⟨i, hi⟩ := (List.mem_ofFn' _ _).mp v1
    have hmax : ∀ k, w k * rowWorst A b x k ≤ v := by
      intro k
      obtain ⟨A', b', a1, a2, a3⟩ := (rowWorst_spec hn A b x hA hb k).2
      rw [← a3]
      exact h1 A' b' a1 a2 k
    refine ⟨i, fun k => (hmax k).trans ?_, ?_⟩
    · rw [← hi]; exact hle i
    · by_contra hno
      obtain ⟨e, hp⟩ := (chebArr_eq hn lp hlp A b w x hA i).2 hno
      have := hmax i
      rw [← hi, e] at this
      have := le_of_mul_le_mul_left this (hw i)
      linarith
  · rintro ⟨i, hmax, hri⟩
    have hvi : v = w i * rowWorst A b x i := by
      apply le_antisymm
      · obtain ⟨k, hk⟩ := (List.mem_ofFn' _ _).mp v1
        rw [← hk]
        exact (hle k).trans (hmax k)
      · rw [← (chebArr_eq hn lp hlp A b w x hA i).1 hri]
        exact v2 _ ((List.mem_ofFn' _ _).mpr ⟨i, rfl⟩)
    constructor
    · intro A' b' hA' hb' k
      rw [hvi]
      exact (mul_le_mul_of_nonneg_left ((rowWorst_spec hn A b x hA hb k).1 A' b' hA' hb') (hw k).le).trans (hmax k)
    · obtain ⟨A', b', a1, a2, a3⟩ := (rowWorst_spec hn A b x hA hb i).2
      exact ⟨A', b', a1, a2, i, by rw [a3, hvi]⟩

/-- C46, how far off the reported value can be: no weighted residual exceeds it by more than twice the weighted radius of
the interval product of its row. -/
theorem C46_deficit (hn : 0 < n) (lp : (Fin n → K) → (Fin n → K) → (Fin n → K) → Fin n → K)
    (hlp : IsBoxLP lp) (A : Fin m → Fin n → Iv K) (b : Fin m → Iv K) (w : Fin m → K) (x : Fin n → K)
    (hA : ∀ i j, Ordinary (A i j)) (hb : ∀ i, Ordinary (b i)) (hw : ∀ i, 0 < w i) (v : K)
    (hv : chebValue lp A b w x = .ok v) (A' : Fin m → Fin n → K) (b' : Fin m → K) (hA' : InMat A' A) (hb' : InVec b' b)
    (i : Fin m) :
    w i * |b' i - apply A' x i| ≤ v + 2 * (w i * min (rowRad (A i) x) |(b i).mid Rnd.exact - rowMid (A i) x|) := by
  have hvi := (npAmax_spec hv).2 _ ((List.mem_ofFn' _ _).mpr ⟨i, rfl⟩)
  have h1 := mul_le_mul_of_nonneg_left ((rowWorst_spec hn A b x hA hb i).1 A' b' hA' hb') (hw i).le
  have h2 := mul_nonneg (hw i).le (le_min (rowRad_nonneg (hA i) x) (abs_nonneg ((b i).mid Rnd.exact - rowMid (A i) x)))
  obtain ⟨e1, e2⟩ := chebArr_eq hn lp hlp A b w x hA i
  by_cases h : ChebRight A b x i
  · rw [e1 h] at hvi
    linarith
  · obtain ⟨e, -⟩ := e2 h
    rw [e, mul_sub] at hvi
    linarith

/-- `[1,3] x = 0` at `x = 1`: the only row is treated wrongly, and the value 1 is smaller than the worst residual 3 by
twice the radius 1. -/
example : ¬ ChebRight (fun _ _ => ⟨.classical, 1, 3⟩ : Fin 1 → Fin 1 → Iv ℚ) (fun _ => ⟨.classical, 0, 0⟩) (fun _ => 1) 0 ∧
    rowWorst (fun _ _ => ⟨.classical, 1, 3⟩ : Fin 1 → Fin 1 → Iv ℚ) (fun _ => ⟨.classical, 0, 0⟩) (fun _ => 1) 0 = 3 ∧
    rowRad ((fun _ => ⟨.classical, 1, 3⟩) : Fin 1 → Iv ℚ) (fun _ => 1) = 1 ∧
    chebValue cornerLP (fun _ _ => ⟨.classical, 1, 3⟩ : Fin 1 → Fin 1 → Iv ℚ) (fun _ => ⟨.classical, 0, 0⟩)
      (fun _ => 1) (fun _ => 1) = .ok 1 := by
  refine ⟨?_, ?_, ?_, by decide +kernel⟩
  · unfold ChebRight
    decide +kernel
  · decide +kernel
  · decide +kernel

/-- C69 for point matrices and any positive weights: the gradient handed to the optimiser, multiplied by the weight of an
active row, is a subgradient.  So its direction is right; a zero gradient means that the point is a minimum. -/
theorem C69_direction (lp : (Fin n → K) → (Fin n → K) → (Fin n → K) → Fin n → K)
    (hlp : IsBoxLP lp) (A : Fin m → Fin n → Iv K) (b : Fin m → Iv K) (w : Fin m → K) (x : Fin n → K) (f : K) (g : Fin n → K)
    (hA : ∀ i j, Ordinary (A i j)) (hpt : ∀ i j, (A i j).a = (A i j).b) (hw : ∀ i, 0 < w i)
    (h : chebCalcfg lp (recData A b w) x = .ok (f, g)) :
    chebValue lp A b w x = .ok f ∧
    (∃ i, ∀ y v, chebValue lp A b w y = .ok v → f + w i * ∑ j, g j * (y j - x j) ≤ v) ∧
    (g = 0 → ∀ y v, chebValue lp A b w y = .ok v → f ≤ v) := by
  have hrow : ∀ (i : Fin m) (z : Fin n → K), chebRow lp z (fun j => (A i j).a) (fun j => (A i j).b)
      ((b i).mid Rnd.exact) = fun j => (A i j).a := by
    intro i z
    have : ∀ c : Fin n → K, lp c (fun j => (A i j).a) (fun j => (A i j).b) = fun j => (A i j).a := by
      intro c
      funext j
      have := (hlp c (fun j => (A i j).a) (fun j => (A i j).b) fun j => (hA i j).2).1 j
      exact le_antisymm (by rw [hpt i j]; exact this.2) this.1
    rw [chebRow]
    simp only [this, ite_self]
  have key : ∃ i, chebArr lp (recData A b w) x i = f ∧ (∀ k, chebArr lp (recData A b w) x k ≤ f) ∧
      ∀ y v, chebValue lp A b w y = .ok v → f + w i * ∑ j, g j * (y j - x j) ≤ v := by
    rw [chebCalcfg] at h
    cases hmc : npArgmax (chebArr lp (recData A b w) x) with
    | error e => rw [hmc] at h; cases h
    | ok i =>
      rw [hmc] at h
      simp only [Except.ok.injEq, Prod.mk.injEq] at h
      obtain ⟨rfl, rfl⟩ := h
      refine ⟨i, rfl, ?_, fun y v hv => ?_⟩
      · intro k
        unfold npArgmax at hmc
        cases ha : (List.finRange m).argmax (chebArr lp (recData A b w) x) with
        | none => rw [ha] at hmc; cases hmc
        | some i' =>
          rw [ha] at hmc
          cases hmc
          exact List.le_of_mem_argmax (List.mem_finRange k) ha
      have hvi := (npAmax_spec hv).2 _ ((List.mem_ofFn' _ _).mpr ⟨i, rfl⟩)
      refine le_trans ?_ hvi
      have harr : ∀ z, chebArr lp (recData A b w) z i = w i * ((b i).rad Rnd.exact + |(b i).mid Rnd.exact -
          dotF (fun j => (A i j).a) z|) := by
        intro z
        rw [← hrow i z]
        rfl
      have hrow' : chebRow lp x ((recData A b w).infA i) ((recData A b w).supA i)
        ((recData A b w).bm i) = fun j => (A i j).a := hrow i x
      rw [harr, harr, hrow']
      have hsum : ∑ j, (A i j).a * npSign (dotF (fun j => (A i j).a) x - (recData A b w).bm i) * (y j - x j)
          = npSign (dotF (fun j => (A i j).a) x - (b i).mid Rnd.exact) *
            (dotF (fun j => (A i j).a) y - dotF (fun j => (A i j).a) x) := by
        rw [dotF, dotF, ← Finset.sum_sub_distrib, Finset.mul_sum]
        exact Finset.sum_congr rfl fun j _ => by
          change _ * npSign (∑ j, (A i j).a * x j - (b i).mid Rnd.exact) * _ = _
          ring
      rw [hsum, ← mul_add]
      apply mul_le_mul_of_nonneg_left _ (hw i).le
      generalize dotF (fun j => (A i j).a) x = p
      generalize dotF (fun j => (A i j).a) y = q
      generalize (b i).mid Rnd.exact = c
      unfold npSign
      split_ifs with h1 h2
      · rw [abs_of_neg (by linarith)]
        have := neg_le_abs (c - q)
        linarith
      · rw [abs_of_pos (by linarith)]
        have := le_abs_self (c - q)
        linarith
      · have : p = c := by linarith
        rw [this]
        simp
  obtain ⟨i, k1, k2, k3⟩ := key
  refine ⟨?_, ⟨i, k3⟩, fun hg y v hv => ?_⟩
  · obtain ⟨v, hv⟩ := npAmax_ok (l := List.ofFn (chebArr lp (recData A b w) x)) (by
      intro hnil
      have := congrArg List.length hnil
      simp at this
      subst this
      exact i.elim0)
    obtain ⟨v1, v2⟩ := npAmax_spec hv
    obtain ⟨k, hk⟩ := (List.mem_ofFn' _ _).mp v1
    have : v = f := le_antisymm (hk ▸ k2 k) (k1 ▸ v2 _ ((List.mem_ofFn' _ _).mpr ⟨i, rfl⟩))
    rw [← this]
    exact hv
  · have := k3 y v hv
    simpa [hg] using this

/-- The hypotheses hold for the equation `x = 0` with weight 2 at `x = 1`, where the gradient is 1 and the value 2. -/
example : (chebCalcfg cornerLP (recData (fun _ _ => ⟨.classical, 1, 1⟩ : Fin 1 → Fin 1 → Iv ℚ)
    (fun _ => ⟨.classical, 0, 0⟩) (fun _ => 2)) (fun _ => 1)).map (fun r => (r.1, r.2 0)) = .ok (2, 1) := by
  decide +kernel

end IntvalPy
