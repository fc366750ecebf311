import Verif.PropsOptim

/-!
# C68: the default penalty factor, exactly

`find_mu` divides by the least absolute value of the sum of a nonempty group of nonzero coefficients of one variable.
The outcome is determined in every case.
-/

set_option autoImplicit false
set_option linter.unusedSectionVars false

namespace IntvalPy

variable {K : Type*} [Field K] [LinearOrder K] [IsStrictOrderedRing K] {n : ℕ}

/-- `t` is the sum of a nonempty group of nonzero coefficients of the variable `j` in the constraints. -/
def GroupSum (rows : Rows K n) (j : Fin n) (t : K) : Prop :=
  ∃ s : List K, s.Sublist ((rows.map fun r => r.1 j).filter (· ≠ 0)) ∧ s ≠ [] ∧ s.sum = t

theorem sublist_of_pick (l : List K) : ∀ x : List K, x.length = l.length → (∀ y ∈ x, y ∈ ([0, 1] : List K)) →
    ∃ s : List K, s.Sublist l ∧ s.sum = (List.zipWith (· * ·) l x).sum ∧ ((1 : K) ∈ x → s ≠ []) := by
  induction l with
  | nil =>
    intro x hx _
    have : x = [] := List.length_eq_zero_iff.mp hx
    subst this
    exact ⟨[], List.Sublist.refl _, rfl, by simp⟩
  | cons a l ih =>
    intro x hx h01
    cases x with
    | nil => simp at hx
    | cons b x =>
      obtain ⟨s, h1, h2, h3⟩ := ih x (by simpa using hx) fun y hy => h01 y (List.mem_cons_of_mem _ hy)
      have hb := h01 b (by simp)
      simp only [List.mem_cons, List.not_mem_nil, or_false] at hb
      rcases hb with rfl | rfl
      · refine ⟨s, h1.cons _, by simp [h2], fun h => h3 ?_⟩
        rcases List.mem_cons.mp h with h | h
        · exact absurd h one_ne_zero
        · exact h
      · exact ⟨a :: s, h1.cons_cons _, by simp [h2], fun _ => by simp⟩

theorem pick_of_sublist {s l : List K} (h : s.Sublist l) :
    ∃ x : List K, x.length = l.length ∧ (∀ y ∈ x, y ∈ ([0, 1] : List K)) ∧
      (List.zipWith (· * ·) l x).sum = s.sum ∧ (s ≠ [] → (1 : K) ∈ x) := by
  induction h with
  | slnil => exact ⟨[], rfl, by simp, rfl, fun h => absurd rfl h⟩
  | cons a h ih =>
    obtain ⟨x, h1, h2, h3, h4⟩ := ih
    refine ⟨0 :: x, by simp [h1], ?_, by simp [h3], fun h => List.mem_cons_of_mem _ (h4 h)⟩
    intro y hy
    rcases List.mem_cons.mp hy with rfl | hy
    · simp
    · exact h2 y hy
  | cons_cons a h ih =>
    obtain ⟨x, h1, h2, h3, h4⟩ := ih
    refine ⟨1 :: x, by simp [h1], ?_, by simp [h3], fun _ => by simp⟩
    intro y hy
    rcases List.mem_cons.mp hy with rfl | hy
    · simp
    · exact h2 y hy

/-- One column: nothing for a zero column, otherwise the least absolute value of a group sum. -/
theorem muColumn_spec (c : List K) :
    (muColumn c = none ∧ c.filter (· ≠ 0) = []) ∨
    ∃ v, muColumn c = some v ∧ (∃ s : List K, s.Sublist (c.filter (· ≠ 0)) ∧ s ≠ [] ∧ |s.sum| = v) ∧
      ∀ s : List K, s.Sublist (c.filter (· ≠ 0)) → s ≠ [] → v ≤ |s.sum| := by
  by_cases hc : c.filter (· ≠ 0) = []
  · left
    refine ⟨?_, hc⟩
    rw [muColumn]
    simp only [hc, if_true]
  · right
    obtain ⟨t, ht, h1t⟩ := product01 (K := K) (c.filter (· ≠ 0)).length
    have inT : ∀ x : List K, x.length = (c.filter (· ≠ 0)).length → (∀ y ∈ x, y ∈ ([0, 1] : List K)) → (1 : K) ∈ x → x ∈ t := by
      intro x h1 h2 h3
      have hx : x ∈ product ([0, 1] : List K) (c.filter (· ≠ 0)).length := (mem_product _ _ _).mpr ⟨h1, h2⟩
      rw [ht] at hx
      rcases List.mem_cons.mp hx with rfl | h
      · exact absurd (List.eq_of_mem_replicate h3) one_ne_zero
      · exact h
    have le : ∀ s : List K, s.Sublist (c.filter (· ≠ 0)) → s ≠ [] →
        |s.sum| ∈ t.map fun x => |(List.zipWith (· * ·) (c.filter (· ≠ 0)) x).sum| := by
      intro s h1 h2
      obtain ⟨x, x1, x2, x3, x4⟩ := pick_of_sublist h1
      exact List.mem_map.mpr ⟨x, inT x x1 x2 (x4 h2), by rw [x3]⟩
    obtain ⟨v, hv⟩ := npAmin_ok (List.ne_nil_of_mem (le _ (List.Sublist.refl _) hc))
    obtain ⟨s1, s2⟩ := npAmin_spec hv
    refine ⟨v, ?_, ?_, fun s h1 h2 => s2 _ (le s h1 h2)⟩
    · rw [muColumn]
      simp only
      rw [if_neg hc, ht]
      simp only [List.map_cons, List.tail_cons, hv]
    · obtain ⟨x, hx, rfl⟩ := List.mem_map.mp s1
      have hx' : x ∈ product ([0, 1] : List K) (c.filter (· ≠ 0)).length := by rw [ht]; exact List.mem_cons_of_mem _ hx
      obtain ⟨m1, m2⟩ := (mem_product _ _ _).mp hx'
      obtain ⟨s, g1, g2, g3⟩ := sublist_of_pick _ x m1 m2
      exact ⟨s, g1, g3 (h1t x hx), by rw [g2]⟩

/-- C68, exactly, for a positive numerator: `find_mu` raises `ValueError` if and only if the matrix is zero; the factor is
infinite if and only if some nonempty group of nonzero coefficients of one variable has the sum zero; in all other
cases it is the positive number `numerator / (least absolute value of a group sum)`. -/
theorem C68_exact (rows : Rows K n) (mag : K) (hmag : 0 < mag) :
    (findMu rows mag = .error .valueError ↔ ∀ r ∈ rows, ∀ j, r.1 j = 0) ∧
    (findMu rows mag = .ok .inf ↔ ∃ j, GroupSum rows j 0) ∧
    (∀ v, findMu rows mag = .ok (.fin v) ↔
      (∃ j t, GroupSum rows j t ∧ t ≠ 0 ∧ v = mag / |t|) ∧ ∀ j t, GroupSum rows j t → t ≠ 0 ∧ mag / |t| ≤ v) ∧
    ((∃ r ∈ rows, ∃ j, r.1 j ≠ 0) → (¬ ∃ j, GroupSum rows j 0) → ∃ v, findMu rows mag = .ok (.fin v) ∧ 0 < v) := by
  have hzero : ∀ j, (rows.map fun r => r.1 j).filter (· ≠ 0) = [] ↔ ∀ r ∈ rows, r.1 j = 0 := by
    intro j
    rw [List.filter_eq_nil_iff]
    constructor
    · intro h r hr
      simpa using h (r.1 j) (List.mem_map.mpr ⟨r, hr, rfl⟩)
    · intro h a ha
      obtain ⟨r, hr, rfl⟩ := List.mem_map.mp ha
      simpa using h r hr
  have group_of_ne : ∀ r ∈ rows, ∀ j, r.1 j ≠ 0 → GroupSum rows j (r.1 j) := by
    intro r hr j hj
    refine ⟨[r.1 j], ?_, by simp, by simp⟩
    rw [List.singleton_sublist, List.mem_filter]
    exact ⟨List.mem_map.mpr ⟨r, hr, rfl⟩, by simpa using hj⟩
  -- either no variable occurs, or the least group sum `d` is found
  have key : ((∀ r ∈ rows, ∀ j, r.1 j = 0) ∧ findMu rows mag = .error .valueError) ∨
      ∃ d, (∃ j t, GroupSum rows j t ∧ |t| = d) ∧ (∀ j t, GroupSum rows j t → d ≤ |t|) ∧
        findMu rows mag = .ok (if d = 0 then .inf else .fin (mag / d)) := by
    by_cases hall : ∀ r ∈ rows, ∀ j, r.1 j = 0
    · left
      refine ⟨hall, ?_⟩
      have : ((List.finRange n).filterMap fun j => muColumn (rows.map fun r => r.1 j)) = [] := by
        rw [List.filterMap_eq_nil_iff]
        intro j _
        rcases muColumn_spec (rows.map fun r => r.1 j) with ⟨h, -⟩ | ⟨v, -, ⟨s, h1, h2, -⟩, -⟩
        · exact h
        · rw [(hzero j).mpr fun r hr => hall r hr j] at h1
          exact absurd (List.sublist_nil.mp h1) h2
      rw [findMu]
      simp only [this]
      rfl
    · right
      simp only [not_forall] at hall
      obtain ⟨r, hr, j, hj⟩ := hall
      have mem : ∀ j t, GroupSum rows j t →
          ∃ v ∈ (List.finRange n).filterMap (fun j => muColumn (rows.map fun r => r.1 j)), v ≤ |t| := by
        rintro j t ⟨s, s1, s2, rfl⟩
        rcases muColumn_spec (rows.map fun r => r.1 j) with ⟨-, h⟩ | ⟨v, h1, -, h3⟩
        · rw [h] at s1
          exact absurd (List.sublist_nil.mp s1) s2
        · exact ⟨v, List.mem_filterMap.mpr ⟨j, List.mem_finRange j, h1⟩, h3 s s1 s2⟩
      obtain ⟨v, hv, -⟩ := mem j _ (group_of_ne r hr j hj)
      obtain ⟨d, hd⟩ := npAmin_ok (List.ne_nil_of_mem hv)
      obtain ⟨d1, d2⟩ := npAmin_spec hd
      refine ⟨d, ?_, ?_, ?_⟩
      · obtain ⟨j', -, hj'⟩ := List.mem_filterMap.mp d1
        rcases muColumn_spec (rows.map fun r => r.1 j') with ⟨h, -⟩ | ⟨v', h1, ⟨s, s1, s2, s3⟩, -⟩
        · rw [h] at hj'; cases hj'
        · rw [h1] at hj'
          cases hj'
          exact ⟨j', _, ⟨s, s1, s2, rfl⟩, s3⟩
      · intro j t h
        obtain ⟨v, h1, h2⟩ := mem j t h
        exact (d2 v h1).trans h2
      · rw [findMu]
        simp only [hd, if_neg hmag.ne']
  rcases key with ⟨hall, hf⟩ | ⟨d, ⟨j₀, t₀, hg, ht₀⟩, hmin, hf⟩
  · have none : ∀ j t, ¬ GroupSum rows j t := by
      rintro j t ⟨s, s1, s2, -⟩
      rw [(hzero j).mpr fun r hr => hall r hr j] at s1
      exact s2 (List.sublist_nil.mp s1)
    rw [hf]
    refine ⟨by simpa using hall, ?_, ?_, ?_⟩
    · simp only [reduceCtorEq, false_iff, not_exists]
      exact fun j => none j 0
    · intro v
      simp only [reduceCtorEq, false_iff]
      rintro ⟨⟨j, t, h, -⟩, -⟩
      exact none j t h
    · rintro ⟨r, hr, j, hj⟩
      exact absurd (hall r hr j) hj
  · have hex : ¬ ∀ r ∈ rows, ∀ j, r.1 j = 0 := by
      intro hall
      obtain ⟨s, s1, s2, -⟩ := hg
      rw [(hzero j₀).mpr fun r hr => hall r hr j₀] at s1
      exact s2 (List.sublist_nil.mp s1)
    rw [hf]
    by_cases hd : d = 0
    · rw [if_pos hd]
      have ht : t₀ = 0 := by rw [hd] at ht₀; exact abs_eq_zero.mp ht₀
      subst ht
      refine ⟨by simpa using hex, by simpa using ⟨j₀, hg⟩, ?_, fun _ h => absurd ⟨j₀, hg⟩ h⟩
      intro v
      simp only [Except.ok.injEq, reduceCtorEq, false_iff]
      rintro ⟨-, h⟩
      exact (h j₀ 0 hg).1 rfl
    · rw [if_neg hd]
      have hd0 : 0 < d := lt_of_le_of_ne (by rw [← ht₀]; exact abs_nonneg _) (Ne.symm hd)
      have hne : ∀ j t, GroupSum rows j t → t ≠ 0 := by
        rintro j t h rfl
        have := hmin j 0 h
        rw [abs_zero] at this
        exact absurd this (not_le.mpr hd0)
      refine ⟨by simpa using hex, ?_, ?_, fun _ _ => ⟨_, rfl, div_pos hmag hd0⟩⟩
      · simp only [Except.ok.injEq, reduceCtorEq, false_iff, not_exists]
        exact fun j h => hne j 0 h rfl
      · intro v
        simp only [Except.ok.injEq, Mu.fin.injEq]
        constructor
        · rintro rfl
          exact ⟨⟨j₀, t₀, hg, hne _ _ hg, by rw [ht₀]⟩, fun j t h => ⟨hne j t h,
            div_le_div_of_nonneg_left hmag.le hd0 (hmin j t h)⟩⟩
        · rintro ⟨⟨j, t, h1, -, rfl⟩, h3⟩
          apply le_antisymm
          · rw [← ht₀]; exact (h3 j₀ t₀ hg).2
          · exact div_le_div_of_nonneg_left hmag.le hd0 (hmin j t h1)

/-- Two constraints `2 x <= 1` and `-3 x <= 1`: the group sums are 2, -3 and -1, so the factor is the numerator. -/
example : findMu ([(![2], 1), (![-3], 1)] : Rows ℚ 1) 5 = .ok (.fin 5) := by decide +kernel

/-- With `2 x <= 1`, `-3 x <= 1` and `x <= 1` the sum of all three is zero. -/
example : findMu ([(![2], 1), (![-3], 1), (![1], 1)] : Rows ℚ 1) 5 = .ok .inf ∧
    GroupSum ([(![2], 1), (![-3], 1), (![1], 1)] : Rows ℚ 1) 0 0 :=
  ⟨by decide +kernel, [2, -3, 1], by decide +kernel, by simp, by norm_num⟩

end IntvalPy
