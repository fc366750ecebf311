import Verif.PropsRecFun
import Mathlib.Algebra.Order.BigOperators.Group.List

/-!
# C34, C68: linear constraints; C35, C36: the optimiser
-/

set_option autoImplicit false
set_option linter.unusedSectionVars false

namespace IntvalPy
open Spec

variable {K : Type*} [Field K] [LinearOrder K] [IsStrictOrderedRing K] {p m n : ℕ}

/-! ## C34 -/

/-- Every row of the transformed constraint is satisfied. -/
def RowsOK (rows : Rows K n) (x : Fin n → K) : Prop := ∀ r ∈ rows, dotF r.1 x ≤ r.2

theorem excess_nonneg (r : (Fin n → K) × K) (x : Fin n → K) :
    0 ≤ (if r.2 < dotF r.1 x then dotF r.1 x - r.2 else 0) := by
  split_ifs with h
  · linarith
  · exact le_refl _

theorem sum_excess (rows : Rows K n) (x : Fin n → K) :
    0 ≤ (rows.map fun r => if r.2 < dotF r.1 x then dotF r.1 x - r.2 else 0).sum ∧
    ((rows.map fun r => if r.2 < dotF r.1 x then dotF r.1 x - r.2 else 0).sum = 0 ↔ RowsOK rows x) := by
  induction rows with
  | nil => simp [RowsOK]
  | cons r rows ih =>
    obtain ⟨i1, i2⟩ := ih
    have h0 := excess_nonneg r x
    rw [List.map_cons, List.sum_cons]
    refine ⟨add_nonneg h0 i1, ?_⟩
    rw [add_eq_zero_iff_of_nonneg h0 i1, i2]
    have : (if r.2 < dotF r.1 x then dotF r.1 x - r.2 else 0) = 0 ↔ dotF r.1 x ≤ r.2 := by
      split_ifs with h
      · constructor
        · intro h'; linarith
        · intro h'; linarith
      · simpa using h
    rw [this]
    simp [RowsOK]

theorem penalty_zero_iff (rows : Rows K n) (mu : K) (hmu : 0 < mu) (x : Fin n → K) :
    0 ≤ linearPenalty rows mu x ∧ (linearPenalty rows mu x = 0 ↔ RowsOK rows x) := by
  obtain ⟨h1, h2⟩ := sum_excess rows x
  refine ⟨mul_nonneg hmu.le h1, ?_⟩
  rw [linearPenalty, mul_eq_zero, or_iff_right hmu.ne', h2]

theorem dotF_neg (c x : Fin n → K) : dotF (fun j => -(c j)) x = -(dotF c x) := by
  simp [dotF, Finset.sum_neg_distrib]

theorem mem_lbRows (C : Fin p → Fin n → K) (lb : Fin p → Bound K) (r : (Fin n → K) × K) :
    r ∈ lbRows C lb ↔ ∃ k c, lb k = .fin c ∧ (∃ j, C k j ≠ 0) ∧ r = (fun j => -(C k j), -c) := by
  unfold lbRows
  rw [List.mem_filterMap]
  constructor
  · rintro ⟨k, _, h⟩
    cases hb : lb k with
    | fin c =>
      rw [hb] at h
      simp only at h
      split_ifs at h with hj
      cases h
      exact ⟨k, c, hb, hj, rfl⟩
    | pinf => rw [hb] at h; cases h
    | ninf => rw [hb] at h; cases h
  · rintro ⟨k, c, hb, hj, rfl⟩
    exact ⟨k, List.mem_finRange k, by rw [hb]; simp only [if_pos hj]⟩

theorem mem_ubRows (C : Fin p → Fin n → K) (ub : Fin p → Bound K) (r : (Fin n → K) × K) :
    r ∈ ubRows C ub ↔ ∃ k c, ub k = .fin c ∧ (∃ j, C k j ≠ 0) ∧ r = (C k, c) := by
  unfold ubRows
  rw [List.mem_filterMap]
  constructor
  · rintro ⟨k, _, h⟩
    cases hb : ub k with
    | fin c =>
      rw [hb] at h
      simp only at h
      split_ifs at h with hj
      cases h
      exact ⟨k, c, hb, hj, rfl⟩
    | pinf => rw [hb] at h; cases h
    | ninf => rw [hb] at h; cases h
  · rintro ⟨k, c, hb, hj, rfl⟩
    exact ⟨k, List.mem_finRange k, by rw [hb]; simp only [if_pos hj]⟩

/-- The rows of the constraint. -/
def allRows (C : Fin p → Fin n → K) (lb ub : Option (Fin p → Bound K)) : Rows K n :=
  (match lb with | some l => lbRows C l | none => []) ++ (match ub with | some u => ubRows C u | none => [])

/-- A row without variables whose bounds exclude 0, or an infinite bound on the wrong side. -/
def BadRow (C : Fin p → Fin n → K) (lb ub : Option (Fin p → Bound K)) : Prop :=
  (∃ l, lb = some l ∧ ∃ k, l k = .pinf ∨ ((∀ j, C k j = 0) ∧ ¬ LowOK (l k) 0)) ∨
  (∃ u, ub = some u ∧ ∃ k, u k = .ninf ∨ ((∀ j, C k j = 0) ∧ ¬ HighOK (u k) 0))

theorem apply_zero_row (C : Fin p → Fin n → K) (x : Fin n → K) (k : Fin p) (h : ¬ ∃ j, C k j ≠ 0) :
    apply C x k = 0 := by
  push Not at h
  simp [apply, h]

theorem rowsOK_iff (C : Fin p → Fin n → K) (lb ub : Option (Fin p → Bound K)) (hbad : ¬ BadRow C lb ub)
    (x : Fin n → K) : RowsOK (allRows C lb ub) x ↔ Feasible C lb ub x := by
  unfold BadRow at hbad
  push Not at hbad
  obtain ⟨hl, hu⟩ := hbad
  have h1 : (RowsOK (match lb with | some l => lbRows C l | none => []) x) ↔
      (∀ l, lb = some l → ∀ k, LowOK (l k) (apply C x k)) := by
    cases lb with
    | none => simp [RowsOK]
    | some l =>
      constructor
      · intro h l' e k
        cases e
        obtain ⟨g1, g2⟩ := hl l rfl k
        by_cases hz : ∃ j, C k j ≠ 0
        · cases hb : l k with
          | fin c =>
            have := h _ ((mem_lbRows C l _).mpr ⟨k, c, hb, hz, rfl⟩)
            simp only [dotF_neg] at this
            change c ≤ _
            exact neg_le_neg_iff.mp this
          | ninf => trivial
          | pinf => exact absurd hb g1
        · rw [apply_zero_row C x k hz]
          push Not at hz
          exact g2 hz
      · intro h r hr
        obtain ⟨k, c, hb, hz, rfl⟩ := (mem_lbRows C l r).mp hr
        have := h l rfl k
        rw [hb] at this
        simp only [dotF_neg]
        exact neg_le_neg this
  have h2 : (RowsOK (match ub with | some u => ubRows C u | none => []) x) ↔
      (∀ u, ub = some u → ∀ k, HighOK (u k) (apply C x k)) := by
    cases ub with
    | none => simp [RowsOK]
    | some u =>
      constructor
      · intro h u' e k
        cases e
        obtain ⟨g1, g2⟩ := hu u rfl k
        by_cases hz : ∃ j, C k j ≠ 0
        · cases hb : u k with
          | fin c => exact h _ ((mem_ubRows C u _).mpr ⟨k, c, hb, hz, rfl⟩)
          | pinf => trivial
          | ninf => exact absurd hb g1
        · rw [apply_zero_row C x k hz]
          push Not at hz
          exact g2 hz
      · intro h r hr
        obtain ⟨k, c, hb, hz, rfl⟩ := (mem_ubRows C u r).mp hr
        have := h u rfl k
        rw [hb] at this
        exact this
  unfold RowsOK allRows Feasible
  simp only [List.mem_append, or_imp, forall_and]
  exact and_congr h1 h2

/-- C34 (full statement, false of the code). -/
def C34_statement (K : Type*) [Field K] [LinearOrder K] : Prop :=
  ∀ (p n : ℕ) (C : Fin p → Fin n → K) (lb ub : Option (Fin p → Bound K)) (mu : K), 0 < p → 0 < mu →
    ∃ rows, linearConstraint C lb ub = .ok (some rows) ∧
      ∀ x, 0 ≤ linearPenalty rows mu x ∧ (linearPenalty rows mu x = 0 ↔ Feasible C lb ub x)

/-- C34 is false of the code: a constraint with infinite bounds only cannot be built, one without bounds is
unusable, and a row `0 x <= -1` that nothing satisfies is dropped. -/
theorem C34_constraint_false : ¬ C34_statement ℚ ∧
    linearConstraint (fun _ _ => 1 : Fin 1 → Fin 1 → ℚ) (some fun _ => .ninf) (some fun _ => .pinf)
      = .error .unboundLocalError ∧
    linearConstraint (fun _ _ => 1 : Fin 1 → Fin 1 → ℚ) (some fun _ => .ninf) none = .error .typeError ∧
    linearConstraint (fun _ _ => 1 : Fin 1 → Fin 1 → ℚ) none none = .ok none ∧
    (let C : Fin 2 → Fin 1 → ℚ := fun i _ => if i = 0 then 1 else 0
     let ub : Fin 2 → Bound ℚ := fun i => if i = 0 then .fin 5 else .fin (-1)
     ∃ rows, linearConstraint C none (some ub) = .ok (some rows) ∧ linearPenalty rows 1 (fun _ => 0) = 0 ∧
      ∀ x, ¬ Feasible C none (some ub) x) := by
  have h0 : linearConstraint (fun _ _ => 1 : Fin 1 → Fin 1 → ℚ) (some fun _ => .ninf) (some fun _ => .pinf)
      = .error .unboundLocalError := by
    have : ∀ b : Bound ℚ, b = .ninf ∨ b = .pinf → lbRows (fun _ _ => 1 : Fin 1 → Fin 1 → ℚ) (fun _ => b) = [] ∧
        ubRows (fun _ _ => 1 : Fin 1 → Fin 1 → ℚ) (fun _ => b) = [] := by
      rintro b (rfl | rfl) <;> constructor <;> simp [lbRows, ubRows]
    simp [linearConstraint, this .ninf (Or.inl rfl), this .pinf (Or.inr rfl)]
  refine ⟨?_, h0, ?_, ?_, ?_⟩
  · intro h
    obtain ⟨rows, h1, _⟩ := h 1 1 (fun _ _ => 1) (some fun _ => .ninf) (some fun _ => .pinf) 1 one_pos one_pos
    rw [h0] at h1
    cases h1
  · have : lbRows (fun _ _ => 1 : Fin 1 → Fin 1 → ℚ) (fun _ => .ninf) = [] := by simp [lbRows]
    simp [linearConstraint, this]
  · simp [linearConstraint]
  · intro C ub
    refine ⟨[(C 0, 5)], ?_, ?_, ?_⟩
    · have : ubRows C ub = [(C 0, 5)] := by
        have : List.finRange 2 = [0, 1] := by decide
        simp [ubRows, this, ub, C]
      simp [linearConstraint, this]
    · simp [linearPenalty, dotF]
    · rintro x ⟨_, h⟩
      have := h ub rfl 1
      simp [ub, HighOK, apply, C] at this
      linarith

/-- C34, partial: the penalty vanishes exactly on the feasible set and is positive elsewhere, provided at
least one row has a variable and a finite bound and no row is unsatisfiable by itself.
Missing: the excluded constraints, for which the property fails (`C34_constraint_false`). -/
theorem C34_constraint_partial (C : Fin p → Fin n → K) (lb ub : Option (Fin p → Bound K)) (mu : K) (hp : 0 < p)
    (hmu : 0 < mu) (hbad : ¬ BadRow C lb ub)
    (huse : ∃ k c, (∃ j, C k j ≠ 0) ∧ ((∃ l, lb = some l ∧ l k = .fin c) ∨ (∃ u, ub = some u ∧ u k = .fin c))) :
    ∃ rows, linearConstraint C lb ub = .ok (some rows) ∧
      ∀ x, 0 ≤ linearPenalty rows mu x ∧ (linearPenalty rows mu x = 0 ↔ Feasible C lb ub x) := by
  have hne : allRows C lb ub ≠ [] := by
    obtain ⟨k, c, hj, h | h⟩ := huse
    · obtain ⟨l, rfl, hc⟩ := h
      have := (mem_lbRows C l _).mpr ⟨k, c, hc, hj, rfl⟩
      intro he
      have h2 : (fun j => -(C k j), -c) ∈ allRows C (some l) ub := List.mem_append_left _ this
      rw [he] at h2
      cases h2
    · obtain ⟨u, rfl, hc⟩ := h
      have := (mem_ubRows C u _).mpr ⟨k, c, hc, hj, rfl⟩
      intro he
      have h2 : (C k, c) ∈ allRows C lb (some u) := List.mem_append_right _ this
      rw [he] at h2
      cases h2
  refine ⟨allRows C lb ub, ?_, fun x => ?_⟩
  · unfold linearConstraint
    rw [if_neg hp.ne']
    cases lb with
    | none =>
      cases ub with
      | none => exact absurd rfl hne
      | some u => exact if_neg hne
    | some l =>
      cases ub with
      | none => exact if_neg hne
      | some u => exact if_neg hne
  · obtain ⟨h1, h2⟩ := penalty_zero_iff (allRows C lb ub) mu hmu x
    exact ⟨h1, h2.trans (rowsOK_iff C lb ub hbad x)⟩

/-- Two-sided bound `0 <= x <= 1`. -/
example : linearConstraint (fun _ _ => 1 : Fin 1 → Fin 1 → ℚ) (some fun _ => .fin 0) (some fun _ => .fin 1)
      = .ok (some [(fun _ => -1, -0), (fun _ => 1, 1)]) ∧
    ¬ BadRow (fun _ _ => 1 : Fin 1 → Fin 1 → ℚ) (some fun _ => .fin 0) (some fun _ => .fin 1) := by
  have : List.finRange 1 = [0] := by decide
  constructor
  · simp [linearConstraint, lbRows, ubRows, this]
  · simp [BadRow]

/-- C34: on points with zero penalty the constrained objective is the unconstrained one. -/
theorem C34_objective_on_feasible (calcfg : (Fin n → K) → Except Err (K × (Fin n → K))) (rows : Rows K n) (mu : K)
    (x : Fin n → K) (f : K) (g : Fin n → K) (h : calcfg x = .ok (f, g)) (hp : RowsOK rows x) :
    calcfgConstr calcfg rows mu x = .ok (f, g) := by
  have h1 : linearPenalty rows mu x = 0 := by rw [linearPenalty, (sum_excess rows x).2.mpr hp, mul_zero]
  have h2 : ∀ j, linearPenaltyGrad rows mu x j = 0 := by
    intro j
    rw [linearPenaltyGrad]
    have : (rows.map fun r => if r.2 < dotF r.1 x then r.1 j else 0) = rows.map fun _ => (0 : K) :=
      List.map_congr_left fun r hr => if_neg (not_lt.mpr (hp r hr))
    rw [this]
    simp
  rw [calcfgConstr, h]
  simp only [Except.map, h1, h2, add_zero]

/-- C34: the penalty gradient is a subgradient of the penalty, `mu >= 0`. -/
theorem C34_penalty_subgradient (rows : Rows K n) (mu : K) (hmu : 0 ≤ mu) (x y : Fin n → K) :
    linearPenalty rows mu x + ∑ j, linearPenaltyGrad rows mu x j * (y j - x j) ≤ linearPenalty rows mu y := by
  have e : ∑ j, linearPenaltyGrad rows mu x j * (y j - x j)
      = mu * (rows.map fun r => if r.2 < dotF r.1 x then dotF r.1 y - dotF r.1 x else 0).sum := by
    induction rows with
    | nil => simp [linearPenaltyGrad]
    | cons r rows ih =>
      rw [List.map_cons, List.sum_cons, mul_add, ← ih]
      have : mu * (if r.2 < dotF r.1 x then dotF r.1 y - dotF r.1 x else 0)
          = ∑ j, mu * (if r.2 < dotF r.1 x then r.1 j else 0) * (y j - x j) := by
        split_ifs
        · rw [dotF, dotF, ← Finset.sum_sub_distrib, Finset.mul_sum]
          exact Finset.sum_congr rfl fun j _ => by ring
        · simp
      rw [this, ← Finset.sum_add_distrib]
      refine Finset.sum_congr rfl fun j _ => ?_
      rw [linearPenaltyGrad, linearPenaltyGrad, List.map_cons, List.sum_cons]
      ring
  rw [e, linearPenalty, linearPenalty, ← mul_add]
  apply mul_le_mul_of_nonneg_left _ hmu
  clear e
  induction rows with
  | nil => simp
  | cons r rows ih =>
    simp only [List.map_cons, List.sum_cons]
    have : (if r.2 < dotF r.1 x then dotF r.1 x - r.2 else 0) + (if r.2 < dotF r.1 x then dotF r.1 y - dotF r.1 x else 0)
        ≤ (if r.2 < dotF r.1 y then dotF r.1 y - r.2 else 0) := by
      split_ifs <;> linarith
    linarith

/-! ## C68: the default factor of the penalty -/

theorem product01 (k : ℕ) : ∃ t, product ([0, 1] : List K) k = List.replicate k 0 :: t ∧ ∀ l ∈ t, (1 : K) ∈ l := by
  induction k with
  | zero => exact ⟨[], rfl, by simp⟩
  | succ k ih =>
    obtain ⟨t, h1, h2⟩ := ih
    refine ⟨t.map (0 :: ·) ++ (product [0, 1] k).map (1 :: ·), ?_, ?_⟩
    · simp [product, h1, List.replicate_succ]
    · intro l hl
      rcases List.mem_append.mp hl with h | h
      · obtain ⟨l', hl', rfl⟩ := List.mem_map.mp h
        exact List.mem_cons_of_mem _ (h2 l' hl')
      · obtain ⟨l', _, rfl⟩ := List.mem_map.mp h
        exact List.mem_cons_self

/-- A 0/1 vector picking one element of a list. -/
theorem pick_one (l : List K) (a : K) (ha : a ∈ l) :
    ∃ x ∈ product ([0, 1] : List K) l.length, (1 : K) ∈ x ∧ (List.zipWith (· * ·) l x).sum = a := by
  induction l with
  | nil => cases ha
  | cons b l ih =>
    rcases List.mem_cons.mp ha with rfl | h
    · refine ⟨1 :: List.replicate l.length 0, ?_, by simp, ?_⟩
      · rw [mem_product]
        refine ⟨by simp, fun y hy => ?_⟩
        rcases List.mem_cons.mp hy with rfl | hy
        · simp
        · rw [List.eq_of_mem_replicate hy]; simp
      · have : ∀ l : List K, (List.zipWith (· * ·) l (List.replicate l.length 0)).sum = 0 := by
          intro l
          induction l with
          | nil => rfl
          | cons c l ih => simp [List.replicate_succ, ih]
        simp [this]
    · obtain ⟨x, h1, h2, h3⟩ := ih h
      refine ⟨0 :: x, ?_, List.mem_cons_of_mem _ h2, by simp [h3]⟩
      rw [mem_product] at h1 ⊢
      refine ⟨by simp [h1.1], fun y hy => ?_⟩
      rcases List.mem_cons.mp hy with rfl | hy
      · simp
      · exact h1.2 y hy

theorem muColumn_le (c : List K) (x : List K) (hx : x ∈ product ([0, 1] : List K) (c.filter (· ≠ 0)).length)
    (h1 : (1 : K) ∈ x) : ∃ v, muColumn c = some v ∧ 0 ≤ v ∧ v ≤ |(List.zipWith (· * ·) (c.filter (· ≠ 0)) x).sum| := by
  obtain ⟨t, ht, _⟩ := product01 (K := K) (c.filter (· ≠ 0)).length
  have hxt : x ∈ t := by
    rw [ht] at hx
    rcases List.mem_cons.mp hx with rfl | h
    · exact absurd (List.eq_of_mem_replicate h1) one_ne_zero
    · exact h
  have hne : c.filter (· ≠ 0) ≠ [] := by
    intro he
    rw [he] at hx
    simp only [product, List.length_nil, List.mem_singleton] at hx
    rw [hx] at h1
    cases h1
  have hmem := List.mem_map_of_mem (f := fun x => |(List.zipWith (· * ·) (c.filter (· ≠ 0)) x).sum|) hxt
  obtain ⟨v, hv⟩ := npAmin_ok (List.ne_nil_of_mem hmem)
  obtain ⟨s1, s2⟩ := npAmin_spec hv
  refine ⟨v, ?_, ?_, s2 _ hmem⟩
  · rw [muColumn]
    simp only
    rw [if_neg hne, ht]
    simp only [List.map_cons, List.tail_cons, hv]
  · obtain ⟨y, _, rfl⟩ := List.mem_map.mp s1
    exact abs_nonneg _

/-- C68 (full statement, false of the code): the default factor is a positive number whenever the matrix is not
zero. -/
def C68_statement (K : Type*) [Field K] [LinearOrder K] : Prop :=
  ∀ (p n : ℕ) (C : Fin p → Fin n → K) (lb ub : Option (Fin p → Bound K)) (rows : Rows K n) (mag : K), 0 < mag →
    linearConstraint C lb ub = .ok (some rows) → ∃ v, findMu rows mag = .ok (.fin v) ∧ 0 < v

/-- With finite lower and upper bounds on the same row, which has a variable, the default factor is infinite. -/
theorem C68_two_sided_infinite (C : Fin p → Fin n → K) (l u : Fin p → Bound K) (rows : Rows K n) (mag : K)
    (hmag : 0 < mag) (h : linearConstraint C (some l) (some u) = .ok (some rows)) (k : Fin p) (c d : K)
    (hl : l k = .fin c) (hu : u k = .fin d) (hC : ∃ j, C k j ≠ 0) :
    findMu rows mag = .ok .inf ∧ ∀ x, Feasible C (some l) (some u) x → penaltyMu rows .inf x = .nan := by
  have hrows : rows = lbRows C l ++ ubRows C u := by
    rw [linearConstraint] at h
    split_ifs at h
    simp only at h
    split_ifs at h
    cases h
    rfl
  obtain ⟨j, hj⟩ := hC
  constructor
  · have hcol : muColumn (rows.map fun r => r.1 j) = some 0 := by
      have m1 : -(C k j) ∈ ((lbRows C l).map fun r => r.1 j).filter (· ≠ 0) := by
        rw [List.mem_filter]
        refine ⟨List.mem_map.mpr ⟨_, (mem_lbRows C l _).mpr ⟨k, c, hl, ⟨j, hj⟩, rfl⟩, rfl⟩, by simpa using hj⟩
      have m2 : C k j ∈ ((ubRows C u).map fun r => r.1 j).filter (· ≠ 0) := by
        rw [List.mem_filter]
        exact ⟨List.mem_map.mpr ⟨_, (mem_ubRows C u _).mpr ⟨k, d, hu, ⟨j, hj⟩, rfl⟩, rfl⟩, by simpa using hj⟩
      obtain ⟨x1, p1, o1, s1⟩ := pick_one _ _ m1
      obtain ⟨x2, p2, o2, s2⟩ := pick_one _ _ m2
      have hlen := (mem_product _ _ _).mp p1
      have hlen2 := (mem_product _ _ _).mp p2
      have e : (rows.map fun r => r.1 j).filter (· ≠ 0) = ((lbRows C l).map fun r => r.1 j).filter (· ≠ 0) ++
          ((ubRows C u).map fun r => r.1 j).filter (· ≠ 0) := by
        rw [hrows, List.map_append, List.filter_append]
      obtain ⟨v, h1, h2, h3⟩ := muColumn_le (rows.map fun r => r.1 j) (x1 ++ x2) (by
        rw [mem_product, e]
        refine ⟨by simp [hlen.1, hlen2.1], fun y hy => ?_⟩
        rcases List.mem_append.mp hy with h | h
        · exact hlen.2 y h
        · exact hlen2.2 y h) (List.mem_append_left _ o1)
      rw [e, List.zipWith_append hlen.1.symm, List.sum_append, s1, s2] at h3
      simp only [neg_add_cancel, abs_zero] at h3
      rw [h1, le_antisymm h3 h2]
    have hmem : (0 : K) ∈ (List.finRange n).filterMap fun j => muColumn (rows.map fun r => r.1 j) :=
      List.mem_filterMap.mpr ⟨j, List.mem_finRange j, hcol⟩
    obtain ⟨v, hv⟩ := npAmin_ok (List.ne_nil_of_mem hmem)
    obtain ⟨s1, s2⟩ := npAmin_spec hv
    have hnn : 0 ≤ v := by
      obtain ⟨i, _, hi⟩ := List.mem_filterMap.mp s1
      rw [muColumn] at hi
      simp only at hi
      split_ifs at hi
      split at hi
      · rename_i w hw
        cases hi
        obtain ⟨y, _, hy⟩ := List.mem_map.mp (List.mem_of_mem_tail (npAmin_spec hw).1)
        rw [← hy]
        exact abs_nonneg _
      · cases hi
    have hv0 : v = 0 := le_antisymm (s2 _ hmem) hnn
    rw [findMu]
    simp only [hv, hv0, if_true, if_neg hmag.ne']
  · rintro x ⟨f1, f2⟩
    have hok : RowsOK rows x := by
      intro r hr
      rw [hrows] at hr
      rcases List.mem_append.mp hr with hr | hr
      · obtain ⟨k, c, hb, _, rfl⟩ := (mem_lbRows C l r).mp hr
        have := f1 l rfl k
        rw [hb] at this
        simp only [dotF_neg]
        exact neg_le_neg this
      · obtain ⟨k, c, hb, _, rfl⟩ := (mem_ubRows C u r).mp hr
        have := f2 u rfl k
        rw [hb] at this
        exact this
    rw [penaltyMu, if_pos ((penalty_zero_iff rows 1 one_pos x).2.mpr hok)]

/-- C68 is false of the code: `0 <= x <= 1` with the default factor. -/
theorem C68_mu_false : ¬ C68_statement ℚ := by
  intro h
  have : List.finRange 1 = [0] := by decide
  have hc : linearConstraint (fun _ _ => 1 : Fin 1 → Fin 1 → ℚ) (some fun _ => .fin 0) (some fun _ => .fin 1)
      = .ok (some [(fun _ => -1, -0), (fun _ => 1, 1)]) := by
    simp [linearConstraint, lbRows, ubRows, this]
  obtain ⟨v, h1, _⟩ := h 1 1 _ _ _ _ 2 (by norm_num) hc
  rw [(C68_two_sided_infinite _ _ _ _ 2 (by norm_num) hc 0 0 1 rfl rfl ⟨0, by norm_num⟩).1] at h1
  cases h1

/-- C68, partial: a positive number when the entries of each column of the transformed matrix have one sign
(for instance only upper bounds and a nonnegative matrix).
Missing: columns where entries of both signs have a subset with zero sum; then the factor is infinite. -/
theorem C68_mu_partial (rows : Rows K n) (mag : K) (hmag : 0 < mag) (hne : ∃ r ∈ rows, ∃ j, r.1 j ≠ 0)
    (hs : ∀ j, (∀ r ∈ rows, 0 ≤ r.1 j) ∨ (∀ r ∈ rows, r.1 j ≤ 0)) :
    ∃ v, findMu rows mag = .ok (.fin v) ∧ 0 < v := by
  have pos : ∀ (l x : List K), (∀ y ∈ l, 0 < y) → (∀ y ∈ x, y ∈ ([0, 1] : List K)) → l.length = x.length →
      0 ≤ (List.zipWith (· * ·) l x).sum ∧ ((1 : K) ∈ x → 0 < (List.zipWith (· * ·) l x).sum) := by
    intro l
    induction l with
    | nil =>
      intro x _ _ hlen
      have : x = [] := List.length_eq_zero_iff.mp hlen.symm
      subst this
      simp
    | cons a l ih =>
      intro x hl hx hlen
      cases x with
      | nil => simp at hlen
      | cons b x =>
        obtain ⟨i1, i2⟩ := ih x (fun y hy => hl y (by simp [hy])) (fun y hy => hx y (by simp [hy]))
          (by simpa using hlen)
        have ha : 0 < a := hl a (by simp)
        have hb := hx b (by simp)
        simp only [List.mem_cons, List.not_mem_nil, or_false] at hb
        simp only [List.zipWith_cons_cons, List.sum_cons]
        rcases hb with rfl | rfl
        · simp only [mul_zero, zero_add, List.mem_cons]
          refine ⟨i1, ?_⟩
          rintro (h | h)
          · exact absurd h one_ne_zero
          · exact i2 h
        · rw [mul_one]
          exact ⟨by linarith, fun _ => by linarith⟩
  have neg : ∀ (l x : List K), (∀ y ∈ l, y < 0) → (∀ y ∈ x, y ∈ ([0, 1] : List K)) → l.length = x.length →
      (1 : K) ∈ x → (List.zipWith (· * ·) l x).sum < 0 := by
    intro l x hl hx hlen h1
    have := (pos (l.map fun y => -y) x (by
      intro y hy
      obtain ⟨z, hz, rfl⟩ := List.mem_map.mp hy
      exact neg_pos.mpr (hl z hz)) hx (by simpa using hlen)).2 h1
    have e : ∀ l x : List K, (List.zipWith (· * ·) (l.map fun y => -y) x).sum = -(List.zipWith (· * ·) l x).sum := by
      intro l
      induction l with
      | nil => simp
      | cons a l ih =>
        intro x
        cases x with
        | nil => simp
        | cons b x => simp [ih x, add_comm]
    rw [e] at this
    linarith
  -- every column value is positive
  have col : ∀ j v, muColumn (rows.map fun r => r.1 j) = some v → 0 < v := by
    intro j v hv
    rw [muColumn] at hv
    simp only at hv
    split_ifs at hv
    split at hv
    · rename_i w hw
      cases hv
      obtain ⟨t, ht, h1t⟩ := product01 (K := K) ((rows.map fun r => r.1 j).filter (· ≠ 0)).length
      have hm := (npAmin_spec hw).1
      rw [ht, List.map_cons, List.tail_cons] at hm
      obtain ⟨x, hx, rfl⟩ := List.mem_map.mp hm
      have hxp : x ∈ product ([0, 1] : List K) ((rows.map fun r => r.1 j).filter (· ≠ 0)).length := by
        rw [ht]; exact List.mem_cons_of_mem _ hx
      obtain ⟨q1, q2⟩ := (mem_product _ _ _).mp hxp
      rw [abs_pos]
      rcases hs j with h | h
      · refine ((pos _ x (fun y hy => ?_) q2 q1.symm).2 (h1t x hx)).ne'
        obtain ⟨g1, g2⟩ := List.mem_filter.mp hy
        obtain ⟨r, hr, rfl⟩ := List.mem_map.mp g1
        exact lt_of_le_of_ne (h r hr) (by simpa using (Ne.symm (by simpa using g2)))
      · refine (neg _ x (fun y hy => ?_) q2 q1.symm (h1t x hx)).ne
        obtain ⟨g1, g2⟩ := List.mem_filter.mp hy
        obtain ⟨r, hr, rfl⟩ := List.mem_map.mp g1
        exact lt_of_le_of_ne (h r hr) (by simpa using g2)
    · cases hv
  obtain ⟨r, hr, j, hj⟩ := hne
  have m1 : r.1 j ∈ (rows.map fun r => r.1 j).filter (· ≠ 0) :=
    List.mem_filter.mpr ⟨List.mem_map.mpr ⟨r, hr, rfl⟩, by simpa using hj⟩
  obtain ⟨x, p1, o1, _⟩ := pick_one _ _ m1
  obtain ⟨v, hv, _, _⟩ := muColumn_le _ x p1 o1
  have hmem : v ∈ (List.finRange n).filterMap fun j => muColumn (rows.map fun r => r.1 j) :=
    List.mem_filterMap.mpr ⟨j, List.mem_finRange j, hv⟩
  obtain ⟨d, hd⟩ := npAmin_ok (List.ne_nil_of_mem hmem)
  obtain ⟨i, _, hi⟩ := List.mem_filterMap.mp (npAmin_spec hd).1
  have hdpos := col i d hi
  refine ⟨mag / d, ?_, div_pos hmag hdpos⟩
  rw [findMu]
  simp only [hd, if_neg hdpos.ne']

/-- `x <= 1`, `2 x <= 5`: factor `3 / 1`. -/
example : findMu ([(fun _ => 1, 1), (fun _ => 2, 5)] : Rows ℚ 1) 3 = .ok (.fin 3) := by decide +kernel

end IntvalPy
