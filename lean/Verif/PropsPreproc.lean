import Verif.PropsOrthant

/-!
# Preprocessing of inequality systems (C49)
-/

set_option autoImplicit false
set_option linter.unusedSectionVars false

namespace IntvalPy

open Spec

variable {K : Type*} [Field K] [LinearOrder K] [FloorRing K] [IsStrictOrderedRing K]

/-! ## Rounding to twelve decimals -/

/-- The value is a decimal fraction with at most twelve decimals. -/
def OnGrid (x : K) : Prop := ∃ z : ℤ, x = (z : K) / 10 ^ 12

theorem rint_intCast (z : ℤ) : rint (z : K) = z := by
  unfold rint
  simp

theorem rint_near (x : K) : |(rint x : K) - x| ≤ 1 / 2 := by
  have h1 := Int.floor_le x
  have h2 := Int.lt_floor_add_one x
  unfold rint
  dsimp only
  rw [abs_le]
  split_ifs <;> push_cast <;> constructor <;> linarith

/-- C49 (rounding): the result is the nearest integer, the even one of the two when the number lies half way between
them. -/
theorem C49_ties (x : K) (z : ℤ) (h : |(z : K) - x| ≤ 1 / 2) :
    rint x = z ∨ |(z : K) - x| = 1 / 2 ∧ |(rint x : K) - x| = 1 / 2 ∧ rint x % 2 = 0 := by
  have h1 := Int.floor_le x
  have h2 := Int.lt_floor_add_one x
  rw [abs_le] at h
  have hz1 : ⌊x⌋ ≤ z := by
    by_contra hc
    have : (z : K) ≤ (⌊x⌋ : K) - 1 := by exact_mod_cast (by omega : z ≤ ⌊x⌋ - 1)
    linarith
  have hz2 : z ≤ ⌊x⌋ + 1 := by
    by_contra hc
    have : (⌊x⌋ : K) + 2 ≤ (z : K) := by exact_mod_cast (by omega : ⌊x⌋ + 2 ≤ z)
    linarith
  obtain rfl | rfl : z = ⌊x⌋ ∨ z = ⌊x⌋ + 1 := by omega
  · unfold rint
    dsimp only
    split_ifs with a b c
    · exact Or.inl rfl
    · linarith [h.1]
    · exact Or.inl rfl
    · have e : x - ⌊x⌋ = 1 / 2 := le_antisymm (not_lt.1 b) (not_lt.1 a)
      refine Or.inr ⟨?_, ?_, by omega⟩
      · rw [show (⌊x⌋ : K) - x = -(1 / 2) by linarith, abs_neg, abs_of_pos (by norm_num)]
      · push_cast
        rw [show (⌊x⌋ : K) + 1 - x = 1 / 2 by linarith, abs_of_pos (by norm_num)]
  · unfold rint
    dsimp only
    push_cast at h
    split_ifs with a b c
    · linarith [h.2]
    · exact Or.inl rfl
    · have e : x - ⌊x⌋ = 1 / 2 := le_antisymm (not_lt.1 b) (not_lt.1 a)
      refine Or.inr ⟨?_, ?_, c⟩
      · push_cast
        rw [show (⌊x⌋ : K) + 1 - x = 1 / 2 by linarith, abs_of_pos (by norm_num)]
      · rw [show (⌊x⌋ : K) - x = -(1 / 2) by linarith, abs_neg, abs_of_pos (by norm_num)]
    · exact Or.inl rfl

/-- Half way: `1/2` goes down and `3/2` goes up. -/
example : rint (1 / 2 : ℚ) = 0 ∧ rint (3 / 2 : ℚ) = 2 ∧ rint (-1 / 2 : ℚ) = 0 := by decide +kernel

theorem around12_of_onGrid {x : K} (h : OnGrid x) : around12 x = x := by
  obtain ⟨z, rfl⟩ := h
  unfold around12
  have : (z : K) / 10 ^ 12 * 10 ^ 12 = z := by field_simp
  rw [this, rint_intCast]

theorem around12_onGrid (x : K) : OnGrid (around12 x) := ⟨_, rfl⟩

theorem around12_near (x : K) : |around12 x - x| ≤ 1 / 2 / 10 ^ 12 := by
  unfold around12
  have hp : (0 : K) < 10 ^ 12 := by positivity
  have h := rint_near (x * 10 ^ 12)
  have e : (rint (x * 10 ^ 12) : K) / 10 ^ 12 - x = ((rint (x * 10 ^ 12) : K) - x * 10 ^ 12) / 10 ^ 12 := by
    field_simp
  rw [e, abs_div, abs_of_pos hp]
  exact div_le_div_of_nonneg_right h hp.le

/-! ## Zero rows -/

/-- C49 (zero rows), full statement: the solutions are those of the rows kept, and none if the flag is
`False`. -/
def C49_clear_statement {d : Nat} (S : List (Ineq K d)) : Prop :=
  ∀ x, Satisfies S x ↔ (clearZeroRows d S).2 = true ∧ Satisfies (clearZeroRows d S).1 x

/-- Rows the preprocessing represents exactly: at most twelve decimals, and coefficients that are zero or
larger in size than `1e-12`. -/
def ExactRow {d : Nat} (r : Ineq K d) : Prop :=
  (∀ j, OnGrid (r.1 j) ∧ (r.1 j = 0 ∨ 1 / 10 ^ 12 < |r.1 j|)) ∧ OnGrid r.2

theorem aroundRow_of_exact {d : Nat} {r : Ineq K d} (h : ExactRow r) : aroundRow r = r := by
  unfold aroundRow
  refine Prod.ext (funext fun j => around12_of_onGrid (h.1 j).1) (around12_of_onGrid h.2)

theorem map_aroundRow {d : Nat} {S : List (Ineq K d)} (h : ∀ r ∈ S, ExactRow r) : S.map aroundRow = S :=
  (List.map_congr_left fun r hr => aroundRow_of_exact (h r hr)).trans (List.map_id S)

theorem smallCount_eq_iff {d : Nat} (r : Ineq K d) : smallCount r = d ↔ ∀ j, |r.1 j| ≤ 1 / 10 ^ 12 := by
  unfold smallCount
  have hlen : (List.finRange d).length = d := List.length_finRange
  constructor
  · intro h j
    have : (List.finRange d).filter (fun j => decide (|r.1 j| ≤ 1 / 10 ^ 12)) = List.finRange d :=
      List.filter_sublist.eq_of_length (by rw [h, hlen])
    have hj : j ∈ (List.finRange d).filter (fun j => decide (|r.1 j| ≤ 1 / 10 ^ 12)) := by
      rw [this]; exact List.mem_finRange j
    simpa using (List.mem_filter.1 hj).2
  · intro h
    rw [List.filter_eq_self.2 (by intro j _; simpa using h j), hlen]

/-- C49 (zero rows), partial: for rows with at most twelve decimals whose nonzero coefficients exceed
`1e-12`, removing the zero rows does not change the solution set and an inconsistent zero row is reported.
Missing: other rows, for which rounding and the threshold change the set (`C49_clear_false`). -/
theorem C49_clear_partial {d : Nat} (S : List (Ineq K d)) (h : ∀ r ∈ S, ExactRow r) :
    C49_clear_statement S := by
  intro x
  have hz : ∀ r ∈ S, smallCount r = d → ∀ j, r.1 j = 0 := fun r hr hc j =>
    ((h r hr).1 j).2.resolve_right (not_lt.2 ((smallCount_eq_iff r).1 hc j))
  have hsum : ∀ r ∈ S, smallCount r = d → ∑ k, r.1 k * x k = 0 := fun r hr hc =>
    Finset.sum_eq_zero fun k _ => by rw [hz r hr hc k, zero_mul]
  unfold clearZeroRows
  simp only [map_aroundRow h]
  have hflag : ((!(S.any fun r => smallCount r == d && decide (0 < r.2))) = true) ↔
      ∀ r ∈ S, smallCount r = d → r.2 ≤ 0 := by
    simp [List.any_eq_false]
  rw [hflag]
  unfold Satisfies
  simp only [List.mem_filter, bne_iff_ne, ne_eq]
  constructor
  · intro hx
    refine ⟨fun r hr hc => ?_, fun r hr => hx r hr.1⟩
    have := hx r hr
    rwa [hsum r hr hc] at this
  · rintro ⟨h1, h2⟩ r hr
    by_cases hc : smallCount r = d
    · rw [hsum r hr hc]; exact h1 r hr hc
    · exact h2 r ⟨hr, hc⟩

/-- The hypotheses are met by a system with a consistent and one with an inconsistent zero row. -/
example : (∀ r ∈ ([(![1, 0], 1/4), (![0, 0], -1)] : List (Ineq ℚ 2)), ExactRow r) ∧
    clearZeroRows 2 ([(![1, 0], 1/4), (![0, 0], -1)] : List (Ineq ℚ 2)) = ([(![1, 0], 1/4)], true) ∧
    (clearZeroRows 2 ([(![1, 0], 1/4), (![0, 0], 1)] : List (Ineq ℚ 2))).2 = false := by
  refine ⟨?_, by decide +kernel, by decide +kernel⟩
  intro r hr
  simp only [List.mem_cons, List.not_mem_nil, or_false] at hr
  rcases hr with rfl | rfl
  · refine ⟨fun j => ?_, 250000000000, by norm_num⟩
    fin_cases j
    · exact ⟨⟨1000000000000, by norm_num⟩, Or.inr (by norm_num)⟩
    · exact ⟨⟨0, by norm_num⟩, Or.inl rfl⟩
  · refine ⟨fun j => ?_, -1000000000000, by norm_num⟩
    fin_cases j <;> exact ⟨⟨0, by norm_num⟩, Or.inl rfl⟩

/-- C49 (zero rows): false.  The row `1e-13 x ≥ -1` (that is `x ≥ -1e13`) disappears, so that `x = -2e13`
becomes a solution. -/
theorem C49_clear_false : ¬ C49_clear_statement ([(![1 / 10 ^ 13, 0], -1)] : List (Ineq ℚ 2)) := by
  intro h
  have h1 := (h ![-2 * 10 ^ 13, 0]).2 (by unfold Satisfies; constructor <;> decide +kernel)
  have := h1 _ (List.mem_cons_self)
  norm_num [Fin.sum_univ_two] at this

/-- C49: what the rounding does in general: every coefficient and right-hand side handed on differs from the
given one by at most half a unit of the twelfth decimal. -/
theorem C49_rounding {d : Nat} (ndim : Nat) (S : List (Ineq K d)) (r : Ineq K d)
    (hr : r ∈ (clearZeroRows ndim S).1 ∨ r ∈ nonRepeat S) :
    ∃ r' ∈ S, (∀ j, |r.1 j - r'.1 j| ≤ 1 / 2 / 10 ^ 12) ∧ |r.2 - r'.2| ≤ 1 / 2 / 10 ^ 12 := by
  have sub : ∀ (L : List (Ineq K d)) seen,
      ∀ r ∈ firstOf (fun r : Ineq K d => fun j => r.1 j - r.2) seen L, r ∈ L := by
    intro L
    induction L with
    | nil => intro seen r hr; exact hr
    | cons s L ih =>
        intro seen r hr
        unfold firstOf at hr
        split_ifs at hr
        · exact List.mem_cons_of_mem _ (ih _ r hr)
        · rcases List.mem_cons.1 hr with rfl | hr
          · exact List.mem_cons_self
          · exact List.mem_cons_of_mem _ (ih _ r hr)
  have hm : r ∈ S.map aroundRow := by
    rcases hr with hr | hr
    · exact (List.mem_filter.1 hr).1
    · exact sub _ _ r hr
  obtain ⟨r', hr', rfl⟩ := List.mem_map.1 hm
  exact ⟨r', hr', fun j => around12_near _, around12_near _⟩

/-! ## Repeated rows -/

theorem firstOf_mem {α β : Type*} [DecidableEq β] (key : α → β) (L : List α) (seen : List β) (r : α)
    (hr : r ∈ firstOf key seen L) : r ∈ L ∧ key r ∉ seen := by
  induction L generalizing seen with
  | nil => cases hr
  | cons s L ih =>
      unfold firstOf at hr
      split_ifs at hr with hs
      · exact ⟨List.mem_cons_of_mem _ (ih seen hr).1, (ih seen hr).2⟩
      · rcases List.mem_cons.1 hr with rfl | hr
        · exact ⟨List.mem_cons_self, hs⟩
        · obtain ⟨h1, h2⟩ := ih _ hr
          exact ⟨List.mem_cons_of_mem _ h1, fun h => h2 (List.mem_cons_of_mem _ h)⟩

theorem firstOf_covers {α β : Type*} [DecidableEq β] (key : α → β) (L : List α) (seen : List β) (r : α)
    (hr : r ∈ L) : key r ∈ seen ∨ ∃ r' ∈ firstOf key seen L, key r' = key r := by
  induction L generalizing seen with
  | nil => cases hr
  | cons s L ih =>
      unfold firstOf
      rcases List.mem_cons.1 hr with rfl | hr
      · by_cases hs : key r ∈ seen
        · exact Or.inl hs
        · right; rw [if_neg hs]; exact ⟨r, List.mem_cons_self, rfl⟩
      · split_ifs with hs
        · exact ih seen hr
        · rcases ih (key s :: seen) hr with h | ⟨r', h1, h2⟩
          · rcases List.mem_cons.1 h with h | h
            · exact Or.inr ⟨s, List.mem_cons_self, h.symm⟩
            · exact Or.inl h
          · exact Or.inr ⟨r', List.mem_cons_of_mem _ h1, h2⟩

theorem firstOf_pairwise {α β : Type*} [DecidableEq β] (key : α → β) (L : List α) (seen : List β) :
    (firstOf key seen L).Pairwise fun r s => key r ≠ key s := by
  induction L generalizing seen with
  | nil => exact List.Pairwise.nil
  | cons s L ih =>
      unfold firstOf
      split_ifs with hs
      · exact ih seen
      · refine List.Pairwise.cons (fun r hr => ?_) (ih _)
        intro h
        exact (firstOf_mem key L _ r hr).2 (h ▸ List.mem_cons_self)

/-- C49 (repeated rows), full statement. -/
def C49_repeat_statement {d : Nat} (S : List (Ineq K d)) : Prop :=
  ∀ x, Satisfies S x ↔ Satisfies (nonRepeat S) x

/-- C49 (repeated rows), partial: for rows with at most twelve decimals, of which no two different ones have
the same difference `a - b`, removing repeated rows keeps the solution set; without the second condition no
solution is lost.  Missing: different rows with the same difference, which are merged
(`C49_repeat_false`). -/
theorem C49_repeat_partial {d : Nat} (S : List (Ineq K d)) (h : ∀ r ∈ S, (∀ j, OnGrid (r.1 j)) ∧ OnGrid r.2) :
    (∀ x, Satisfies S x → Satisfies (nonRepeat S) x) ∧
    ((∀ r ∈ S, ∀ s ∈ S, (∀ j, r.1 j - r.2 = s.1 j - s.2) → r = s) → C49_repeat_statement S) := by
  have hm : S.map aroundRow = S := (List.map_congr_left fun r hr =>
    (Prod.ext (funext fun j => around12_of_onGrid ((h r hr).1 j)) (around12_of_onGrid (h r hr).2) :
      aroundRow r = r)).trans (List.map_id S)
  have h1 : ∀ x, Satisfies S x → Satisfies (nonRepeat S) x := by
    intro x hx r hr
    unfold nonRepeat at hr
    rw [hm] at hr
    exact hx r (firstOf_mem _ _ _ r hr).1
  refine ⟨h1, fun hk x => ⟨h1 x, fun hx r hr => ?_⟩⟩
  have hc := firstOf_covers (fun r : Ineq K d => fun j => r.1 j - r.2) S [] r hr
  rcases hc with hc | ⟨r', h2, h3⟩
  · cases hc
  · have : r' = r := hk r' (firstOf_mem _ _ _ r' h2).1 r hr (fun j => congrFun h3 j)
    subst this
    apply hx
    unfold nonRepeat
    rw [hm]
    exact h2

/-- C49 (repeated rows): false.  `x ≥ 0` and `2x + y ≥ 1` have the same difference `a - b = (1, 0)`; the
second row is dropped and the origin becomes a solution. -/
theorem C49_repeat_false :
    nonRepeat ([(![1, 0], 0), (![2, 1], 1)] : List (Ineq ℚ 2)) = [(![1, 0], 0)] ∧
    ¬ C49_repeat_statement ([(![1, 0], 0), (![2, 1], 1)] : List (Ineq ℚ 2)) := by
  have e : nonRepeat ([(![1, 0], 0), (![2, 1], 1)] : List (Ineq ℚ 2)) = [(![1, 0], 0)] := by decide +kernel
  refine ⟨e, fun h => ?_⟩
  have h1 := (h ![0, 0]).2 (by rw [e]; unfold Satisfies; decide +kernel)
  have := h1 (![2, 1], 1) (by simp)
  norm_num [Fin.sum_univ_two] at this

/-- The hypotheses of the partial theorem are met with a repeated row. -/
example : nonRepeat ([(![1, 0], 0), (![0, 1], 1), (![1, 0], 0)] : List (Ineq ℚ 2)) =
    [(![1, 0], 0), (![0, 1], 1)] := by decide +kernel

/-- C49 (`unique`): the points returned are exactly the given points rounded to twelve decimals, each
once. -/
theorem C49_unique (P : List (K × K)) :
    (∀ q, q ∈ uniquePts P ↔ ∃ p ∈ P, q = (around12 p.1, around12 p.2)) ∧ (uniquePts P).Nodup := by
  constructor
  · intro q
    constructor
    · intro hq
      obtain ⟨p, hp, h⟩ := List.mem_map.1 (firstOf_mem _ _ _ q hq).1
      exact ⟨p, hp, h.symm⟩
    · rintro ⟨p, hp, rfl⟩
      rcases firstOf_covers id (P.map fun p => (around12 p.1, around12 p.2)) [] _
        (List.mem_map.2 ⟨p, hp, rfl⟩) with h | ⟨r', h1, h2⟩
      · cases h
      · have : r' = (around12 p.1, around12 p.2) := h2
        rw [← this]; exact h1
  · exact firstOf_pairwise id _ _

/-- Value of a call of `lineqs`, for evaluation. -/
def verticesOf (r : Hist ℚ (List (ℚ × ℚ))) : List (ℚ × ℚ) :=
  match r.1 with
  | .ok v => v
  | .error _ => []

/-- C49 (reporting): false.  `lineqs` ignores the flag: with the row `0 ≥ 1` in the system, which has no
solutions, the vertices of the triangle described by the other rows are returned. -/
theorem C49_lineqs_false :
    verticesOf (lineqs (1 / 10 ^ 301) [((1, 0), 0), ((0, 1), 0), ((-1, -1), -1), ((0, 0), 1)] none []) =
      [(0, 0), (0, 1), (1, 0)] ∧
    ¬ ∃ x : Fin 2 → ℚ, Satisfies [(![1, 0], 0), (![0, 1], 0), (![-1, -1], -1), (![0, 0], 1)] x := by
  refine ⟨by decide +kernel, ?_⟩
  rintro ⟨x, hx⟩
  have := hx (![0, 0], 1) (by simp)
  norm_num [Fin.sum_univ_two] at this

end IntvalPy
